import Verif.Symbols
/-! Helper lemmas about symbol tables (property statements are in `Props/Symbols.lean`). -/
namespace Ion.SymbolTable
open Ion

/-- Well-formedness of a symbol table: an invariant of every constructed table. -/
structure WF (t : SymbolTable) : Prop where
  maxId : t.maxId = t.symbols.length
  sids : ∀ i (h : i < t.symbols.length), (t.symbols[i]).sid = some (i + 1)
  mapping : ∀ text, PyDict.get t.mapping text = t.symbols.find? (fun k => k.text = some text)

/-- The part of the invariant that does not involve `maxId` (which is set late for system tokens). -/
def MapOK (t : SymbolTable) : Prop :=
  ∀ text, PyDict.get t.mapping text = t.symbols.find? (fun k => k.text = some text)

theorem add_mapOK {t : SymbolTable} (h : MapOK t) (token : SymbolToken) : MapOK (t.add token) := by
  intro text
  simp only [add, List.find?_append]
  cases ht : token.text with
  | none =>
    have hn : [token].find? (fun k => decide (k.text = some text)) = none := by simp [ht]
    simp only [hn, Option.or_none]
    exact h text
  | some s =>
    simp only
    by_cases hs : s = text
    · subst hs
      have h1 : [token].find? (fun k => decide (k.text = some s)) = some token := by simp [ht]
      rw [h1, ← h s]
      cases hg : PyDict.get t.mapping s with
      | none => simp [PyDict.get_set_self]
      | some v => simp [hg]
    · have h1 : [token].find? (fun k => decide (k.text = some text)) = none := by simp [ht, hs]
      rw [h1, Option.or_none, ← h text]
      split
      · rw [PyDict.get_set_ne _ _ _ _ (Ne.symm hs)]
      · rfl

theorem add_wf {t : SymbolTable} (h : WF t) (token : SymbolToken) (hs : token.sid = some (t.maxId + 1)) :
    WF (({ t with maxId := t.maxId + 1 } : SymbolTable).add token) := by
  refine ⟨?_, ?_, ?_⟩
  · simp [add, h.maxId]
  · intro i hi
    simp only [add, List.length_append, List.length_singleton] at hi
    simp only [add]
    by_cases hlt : i < t.symbols.length
    · rw [List.getElem_append_left hlt]; exact h.sids i hlt
    · have : i = t.symbols.length := by omega
      subst this
      rw [List.getElem_append_right (Nat.le_refl _)]
      simp [hs, h.maxId]
  · exact add_mapOK (t := { t with maxId := t.maxId + 1 }) h.mapping token

theorem addShared_wf {t : SymbolTable} (h : WF t) (o : SymbolToken) : WF (t.addShared o) := add_wf h _ rfl
theorem addImport_wf {t : SymbolTable} (h : WF t) (o : SymbolToken) : WF (t.addImport o) := add_wf h _ rfl
theorem addText_wf {t : SymbolTable} (h : WF t) (s : Option Text) : WF (t.addText s).1 := add_wf h _ rfl

/-- What a token says apart from its number. -/
abbrev Content := Option Text × Option ImportLocation

/-- Contents of a table, in order. -/
def contents (t : SymbolTable) : List Content := t.symbols.map fun k => (k.text, k.location)

/-- Everything but the tokens. -/
def SameHead (t u : SymbolTable) : Prop :=
  t.tableType = u.tableType ∧ t.name = u.name ∧ t.version = u.version ∧ t.isSubstitute = u.isSubstitute

theorem SameHead.refl (t : SymbolTable) : SameHead t t := ⟨rfl, rfl, rfl, rfl⟩
theorem SameHead.trans {t u v : SymbolTable} (h1 : SameHead t u) (h2 : SameHead u v) : SameHead t v :=
  ⟨h1.1.trans h2.1, h1.2.1.trans h2.2.1, h1.2.2.1.trans h2.2.2.1, h1.2.2.2.trans h2.2.2.2⟩

theorem wf_empty (tt : TableType) (n : Option Text) (v : Option Int) (b : Bool) :
    WF ⟨tt, n, v, b, 0, [], []⟩ := ⟨rfl, by simp, by simp⟩

theorem wf_system (tt : TableType) (n : Option Text) (v : Option Int) (b : Bool) :
    WF { SYSTEM_SYMBOL_TOKENS.foldl add ⟨tt, n, v, b, 0, [], []⟩ with maxId := SYSTEM_SYMBOL_TOKENS.length } ∧
    contents { SYSTEM_SYMBOL_TOKENS.foldl add ⟨tt, n, v, b, 0, [], []⟩ with maxId := SYSTEM_SYMBOL_TOKENS.length }
      = SYSTEM_SYMBOL_TOKENS.map (fun k => (k.text, k.location)) ∧
    SameHead { SYSTEM_SYMBOL_TOKENS.foldl add ⟨tt, n, v, b, 0, [], []⟩ with maxId := SYSTEM_SYMBOL_TOKENS.length }
      ⟨tt, n, v, b, 0, [], []⟩ := by
  have hm : ∀ (l : List SymbolToken) (t : SymbolTable), MapOK t → MapOK (l.foldl add t) ∧
      (l.foldl add t).symbols = t.symbols ++ l ∧ SameHead (l.foldl add t) t := by
    intro l
    induction l with
    | nil => intro t h; exact ⟨h, by simp, SameHead.refl t⟩
    | cons k l ih =>
      intro t h
      obtain ⟨h1, h2, h3⟩ := ih (t.add k) (add_mapOK h k)
      exact ⟨h1, by rw [List.foldl_cons, h2]; simp [add], h3⟩
  obtain ⟨h1, h2, h3⟩ := hm SYSTEM_SYMBOL_TOKENS ⟨tt, n, v, b, 0, [], []⟩ (by intro t; simp)
  simp only [List.nil_append] at h2
  have hsid : ∀ i : Fin SYSTEM_SYMBOL_TOKENS.length, (SYSTEM_SYMBOL_TOKENS[i]).sid = some (i.val + 1) := by
    decide
  generalize SYSTEM_SYMBOL_TOKENS.foldl add ⟨tt, n, v, b, 0, [], []⟩ = r at h1 h2 h3 ⊢
  obtain ⟨rtt, rn, rv, rb, rm, rs, rmap⟩ := r
  simp only at h2
  subst h2
  exact ⟨⟨rfl, fun i hi => hsid ⟨i, hi⟩, h1⟩, rfl, h3⟩

/-- Effect of importing one table. -/
theorem importTable_spec {t : SymbolTable} (h : WF t) (table : SymbolTable) :
    WF (t.importTable table) ∧ SameHead (t.importTable table) t ∧
    (∃ l, (t.importTable table).symbols = t.symbols ++ l) ∧
    ((t.importTable table).contents.map (·.1) = t.contents.map (·.1) ++
      ((table.symbols.filter fun k => t.tableType.isShared || importable table k).map (·.text))) ∧
    (t.tableType.isShared = false → (t.importTable table).contents = t.contents ++
      ((table.symbols.filter fun k => importable table k).map fun k => (k.text, k.location))) := by
  unfold importTable
  suffices H : ∀ (l : List SymbolToken) (t : SymbolTable), WF t →
      let r := l.foldl (fun t token => if t.tableType.isShared then t.addShared token
        else if importable table token then t.addImport token else t) t
      WF r ∧ SameHead r t ∧ (∃ l', r.symbols = t.symbols ++ l') ∧
      (r.contents.map (·.1) = t.contents.map (·.1) ++
        ((l.filter fun k => t.tableType.isShared || importable table k).map (·.text))) ∧
      (t.tableType.isShared = false → r.contents = t.contents ++
        ((l.filter fun k => importable table k).map fun k => (k.text, k.location))) from H _ t h
  intro l
  induction l with
  | nil => intro t h; exact ⟨h, SameHead.refl t, ⟨[], by simp⟩, by simp, by simp⟩
  | cons k l ih =>
    intro t h
    simp only [List.foldl_cons]
    by_cases hs : t.tableType.isShared
    · simp only [hs, if_true, Bool.true_eq_false, false_implies, and_true]
      obtain ⟨h1, h2, ⟨l', h3⟩, h4, _⟩ := ih (t.addShared k) (addShared_wf h k)
      have e : (t.addShared k).tableType = t.tableType := rfl
      have e2 : (t.addShared k).contents.map (·.1) = t.contents.map (·.1) ++ [k.text] := by
        simp [addShared, add, contents]
      refine ⟨h1, h2.trans ⟨rfl, rfl, rfl, rfl⟩, ?_, ?_⟩
      · exact ⟨_, by rw [h3]; simp only [addShared, add, List.append_assoc]; rfl⟩
      · rw [h4, e2, e, hs]; simp
    · have hs' : t.tableType.isShared = false := by simpa using hs
      simp only [hs', Bool.false_or, Bool.false_eq_true, if_false, forall_const]
      by_cases hi : importable table k
      · simp only [hi, if_true]
        obtain ⟨h1, h2, ⟨l', h3⟩, h4, h5⟩ := ih (t.addImport k) (addImport_wf h k)
        have e : (t.addImport k).tableType = t.tableType := rfl
        have e2 : (t.addImport k).contents = t.contents ++ [(k.text, k.location)] := by
          simp [addImport, add, contents]
        refine ⟨h1, h2.trans ⟨rfl, rfl, rfl, rfl⟩, ⟨_, by rw [h3]; simp only [addImport, add, List.append_assoc]; rfl⟩, ?_, ?_⟩
        · rw [h4, e2, e, hs']; simp [hi]
        · rw [h5 (by rw [e, hs']), e2]; simp [hi]
      · have hi' : importable table k = false := by simpa using hi
        simp only [hi', Bool.false_eq_true, if_false]
        obtain ⟨h1, h2, h3, h4, h5⟩ := ih t h
        refine ⟨h1, h2, h3, ?_, ?_⟩
        · rw [h4, hs']; simp [hi']
        · rw [h5 hs']; simp [hi']

theorem importTables_spec {t : SymbolTable} (h : WF t) (tables : List SymbolTable) :
    WF (tables.foldl importTable t) ∧ SameHead (tables.foldl importTable t) t ∧
    (∃ l, (tables.foldl importTable t).symbols = t.symbols ++ l) ∧
    ((tables.foldl importTable t).contents.map (·.1) = t.contents.map (·.1) ++
      (tables.flatMap fun table =>
        (table.symbols.filter fun k => t.tableType.isShared || importable table k).map (·.text))) ∧
    (t.tableType.isShared = false → (tables.foldl importTable t).contents = t.contents ++
      (tables.flatMap fun table =>
        (table.symbols.filter fun k => importable table k).map fun k => (k.text, k.location))) := by
  induction tables generalizing t with
  | nil => exact ⟨h, SameHead.refl t, ⟨[], by simp⟩, by simp, by simp⟩
  | cons table tables ih =>
    obtain ⟨h1, h2, ⟨l, h3⟩, h4, h5⟩ := importTable_spec h table
    obtain ⟨g1, g2, ⟨l', g3⟩, g4, g5⟩ := ih h1
    rw [List.foldl_cons]
    refine ⟨g1, g2.trans h2, ⟨l ++ l', by rw [g3, h3]; simp⟩, ?_, ?_⟩
    · rw [g4, h4, h2.1]; simp
    · intro hs
      rw [g5 (by rw [h2.1]; exact hs), h5 hs]; simp

theorem addTexts_spec {t : SymbolTable} (h : WF t) (symbols : List (Option Text)) :
    let r := symbols.foldl (fun t s => (t.addText s).1) t
    WF r ∧ SameHead r t ∧ (∃ l, r.symbols = t.symbols ++ l) ∧
    r.contents.map (·.1) = t.contents.map (·.1) ++ symbols ∧
    (t.tableType.isShared = false → r.contents = t.contents ++ symbols.map fun s => (s, none)) := by
  induction symbols generalizing t with
  | nil => exact ⟨h, SameHead.refl t, ⟨[], by simp⟩, by simp, by simp⟩
  | cons s symbols ih =>
    obtain ⟨h1, h2, ⟨l, h3⟩, h4, h5⟩ := ih (addText_wf h s)
    have e : (t.addText s).1.tableType = t.tableType := rfl
    simp only [List.foldl_cons]
    refine ⟨h1, h2.trans ⟨rfl, rfl, rfl, rfl⟩, ⟨_, by rw [h3]; simp only [addText, add, List.append_assoc]; rfl⟩, ?_, ?_⟩
    · rw [h4]; simp [addText, add, contents]
    · intro hs
      rw [h5 (by rw [e]; exact hs)]; simp [addText, add, contents, hs]

/-- Locations of the tokens of a shared (non-system) table point at the table itself. -/
def SelfLocated (t : SymbolTable) : Prop :=
  ∀ i (h : i < t.symbols.length), (t.symbols[i]).location = some ⟨t.name.getD [], i + 1⟩

theorem add_selfLocated {t : SymbolTable} (h : SelfLocated t) (hw : WF t) (text : Option Text) :
    SelfLocated (({ t with maxId := t.maxId + 1 } : SymbolTable).add
      ⟨text, some (t.maxId + 1), some ⟨t.name.getD [], t.maxId + 1⟩⟩) := by
  intro i hi
  simp only [add, List.length_append, List.length_singleton] at hi
  simp only [add]
  by_cases hlt : i < t.symbols.length
  · rw [List.getElem_append_left hlt]; exact h i hlt
  · have : i = t.symbols.length := by omega
    subst this
    rw [List.getElem_append_right (Nat.le_refl _)]
    simp [hw.maxId]

theorem importTables_selfLocated {t : SymbolTable} (h : WF t) (hs : t.tableType.isShared = true) (hl : SelfLocated t)
    (tables : List SymbolTable) : SelfLocated (tables.foldl importTable t) := by
  have key : ∀ (table : SymbolTable) (l : List SymbolToken) (t : SymbolTable), WF t → t.tableType.isShared = true →
      SelfLocated t → SelfLocated (l.foldl (fun t token => if t.tableType.isShared then t.addShared token
        else if importable table token then t.addImport token else t) t) := by
    intro table l
    induction l with
    | nil => intro t _ _ h; exact h
    | cons k l ih =>
      intro t hw hs hl
      rw [List.foldl_cons]
      simp only [hs, if_true]
      exact ih (t.addShared k) (addShared_wf hw k) hs (add_selfLocated hl hw k.text)
  induction tables generalizing t with
  | nil => exact hl
  | cons table tables ih =>
    rw [List.foldl_cons]
    have sp := importTable_spec h table
    exact ih sp.1 (by rw [sp.2.1.1]; exact hs) (key table table.symbols t h hs hl)

theorem addTexts_selfLocated {t : SymbolTable} (h : WF t) (hs : t.tableType.isShared = true) (hl : SelfLocated t)
    (symbols : List (Option Text)) : SelfLocated (symbols.foldl (fun t s => (t.addText s).1) t) := by
  induction symbols generalizing t with
  | nil => exact hl
  | cons s symbols ih =>
    rw [List.foldl_cons]
    refine ih (addText_wf h s) hs ?_
    have := add_selfLocated hl h s
    simp only [addText, hs, if_true]
    exact this

/-- The complete effect of the constructor for local tables. -/
theorem new_local_spec (symbols : List (Option Text)) (imports : Option (List SymbolTable)) (b : Bool) :
    ∃ t, new .local symbols none none imports b = .ok t ∧ WF t ∧ t.tableType = .local ∧ t.name = none ∧
      t.version = none ∧ t.isSubstitute = b ∧
      t.contents = SYSTEM_SYMBOL_TOKENS.map (fun k => (k.text, k.location)) ++
        ((imports.getD []).flatMap fun table =>
          (table.symbols.filter fun k => importable table k).map fun k => (k.text, k.location)) ++
        symbols.map (fun s => (s, none)) := by
  obtain ⟨h1, h2, h3⟩ := wf_system .local none none b
  simp only [new, TableType.isSystem, TableType.isShared, TableType.isLocal, Bool.false_and, Bool.true_and,
    Option.isSome_none, Bool.or_false, if_false, Bool.false_eq_true, Bool.true_or, if_true]
  generalize ({ SYSTEM_SYMBOL_TOKENS.foldl add ⟨.local, none, none, b, 0, [], []⟩ with
    maxId := SYSTEM_SYMBOL_TOKENS.length } : SymbolTable) = t0 at *
  obtain ⟨g1, g2, _, _, g5⟩ := importTables_spec h1 (imports.getD [])
  obtain ⟨k1, k2, _, _, k5⟩ := addTexts_spec g1 symbols
  have hsh : t0.tableType.isShared = false := by rw [h3.1]; rfl
  have hsh2 : ((imports.getD []).foldl importTable t0).tableType.isShared = false := by rw [g2.1]; exact hsh
  have hh := k2.trans (g2.trans h3)
  exact ⟨_, rfl, k1, hh.1, hh.2.1, hh.2.2.1, hh.2.2.2, by rw [k5 hsh2, g5 hsh, h2]⟩

/-- The complete effect of the constructor for shared tables with a positive version. -/
theorem new_shared_spec (symbols : List (Option Text)) (name : Text) (version : Int) (hv : 0 < version)
    (imports : Option (List SymbolTable)) (b : Bool) :
    ∃ t, new .shared symbols (some name) (some version) imports b = .ok t ∧ WF t ∧ t.tableType = .shared ∧
      t.name = some name ∧ t.version = some version ∧ t.isSubstitute = b ∧ SelfLocated t ∧
      t.symbols.map (·.text) = ((imports.getD []).flatMap fun table => table.symbols.map (·.text)) ++ symbols := by
  have hv' : ¬ version ≤ 0 := by omega
  simp only [new, TableType.isSystem, TableType.isShared, TableType.isLocal, Bool.false_and, Bool.true_and,
    Option.isNone_some, Option.all_some, hv', decide_false, Bool.or_false, if_false, Bool.false_eq_true, Bool.false_or]
  have h1 := wf_empty .shared (some name) (some version) b
  have hl : SelfLocated ⟨.shared, some name, some version, b, 0, [], []⟩ := by intro i hi; simp at hi
  have hc : contents ⟨.shared, some name, some version, b, 0, [], []⟩ = [] := rfl
  have hsh : (SymbolTable.mk .shared (some name) (some version) b 0 [] []).tableType.isShared = true := rfl
  have h3 := SameHead.refl ⟨.shared, some name, some version, b, 0, [], []⟩
  have hee : SameHead ⟨.shared, some name, some version, b, 0, [], []⟩
    ⟨.shared, some name, some version, b, 0, [], []⟩ := SameHead.refl _
  generalize ht0 : (SymbolTable.mk .shared (some name) (some version) b 0 [] []) = t0 at h1 hl hc hsh h3 ⊢
  obtain ⟨g1, g2, _, g4, _⟩ := importTables_spec h1 (imports.getD [])
  have g6 := importTables_selfLocated h1 hsh hl (imports.getD [])
  have hsh2 : ((imports.getD []).foldl importTable t0).tableType.isShared = true := by rw [g2.1]; exact hsh
  obtain ⟨k1, k2, _, k4, _⟩ := addTexts_spec g1 symbols
  have k6 := addTexts_selfLocated g1 hsh2 g6 symbols
  have hh := k2.trans g2
  subst ht0
  refine ⟨_, rfl, k1, hh.1, hh.2.1, hh.2.2.1, hh.2.2.2, k6, ?_⟩
  have e : ∀ t : SymbolTable, t.contents.map (·.1) = t.symbols.map (·.text) := by
    intro t; simp [contents, Function.comp_def]
  have ft : ∀ l : List SymbolToken, l.filter (fun _ => true) = l := fun l => List.filter_eq_self.2 (by simp)
  rw [← e, k4, g4, hc, hsh]
  simp [ft]

/-- Every constructed table is well-formed. -/
theorem new_wf {tt : TableType} {symbols : List (Option Text)} {name : Option Text} {version : Option Int}
    {imports : Option (List SymbolTable)} {b : Bool} {t : SymbolTable}
    (h : new tt symbols name version imports b = .ok t) :
    WF t ∧ t.tableType = tt ∧ t.name = name ∧ t.version = version ∧ t.isSubstitute = b := by
  cases tt with
  | system =>
    unfold new at h
    split at h
    · simp at h
    split at h
    · simp at h
    split at h
    · simp at h
    split at h
    · simp at h
    rename_i h1 _ _ _
    have hi : imports = none := by
      cases imports with
      | none => rfl
      | some _ => simp [TableType.isSystem] at h1
    subst hi
    obtain ⟨w1, w2, w3⟩ := wf_system .system name version b
    have e : SymbolTable.mk (SYSTEM_SYMBOL_TOKENS.foldl add ⟨.system, name, version, b, 0, [], []⟩).tableType
        (SYSTEM_SYMBOL_TOKENS.foldl add ⟨.system, name, version, b, 0, [], []⟩).name
        (SYSTEM_SYMBOL_TOKENS.foldl add ⟨.system, name, version, b, 0, [], []⟩).version
        (SYSTEM_SYMBOL_TOKENS.foldl add ⟨.system, name, version, b, 0, [], []⟩).isSubstitute
        SYSTEM_SYMBOL_TOKENS.length
        (SYSTEM_SYMBOL_TOKENS.foldl add ⟨.system, name, version, b, 0, [], []⟩).symbols
        (SYSTEM_SYMBOL_TOKENS.foldl add ⟨.system, name, version, b, 0, [], []⟩).mapping = t := by
      simpa [TableType.isSystem, TableType.isLocal] using h
    subst e
    exact ⟨w1, w3⟩
  | shared =>
    cases name with
    | none => simp [new, TableType.isSystem, TableType.isShared] at h
    | some name =>
      cases version with
      | none => simp [new, TableType.isSystem, TableType.isShared] at h
      | some version =>
        by_cases hv : version ≤ 0
        · simp [new, TableType.isSystem, TableType.isShared, hv] at h
        · obtain ⟨t', e, w, a1, a2, a3, a4, _⟩ := new_shared_spec symbols name version (by omega) imports b
          rw [e] at h; cases h
          exact ⟨w, a1, a2, a3, a4⟩
  | «local» =>
    cases name with
    | some _ => simp [new, TableType.isSystem, TableType.isShared, TableType.isLocal] at h
    | none =>
      cases version with
      | some _ => simp [new, TableType.isSystem, TableType.isShared, TableType.isLocal] at h
      | none =>
        obtain ⟨t', e, w, a1, a2, a3, a4, _⟩ := new_local_spec symbols imports b
        rw [e] at h; cases h
        exact ⟨w, a1, a2, a3, a4⟩

/-- Lookup by number in a well-formed table. -/
theorem WF.getSid_eq {t : SymbolTable} (h : WF t) (n : Nat) (hn : 0 < n) (hle : n ≤ t.maxId) (d : Option SymbolToken) :
    t.getSid n d = t.symbols[n - 1]? ∧ (t.symbols[n - 1]?).isSome := by
  have hm := h.maxId
  constructor
  · unfold getSid
    rw [if_neg (by omega), if_neg (by simp; omega)]
    congr 1; omega
  · simp; omega

theorem WF.getSid_gt {t : SymbolTable} (h : WF t) (n : Nat) (hgt : t.maxId < n) (d : Option SymbolToken) :
    t.getSid n d = d := by
  have hm := h.maxId
  unfold getSid
  rw [if_neg (by omega), if_pos (by simp; omega)]

end Ion.SymbolTable
