import Verif.SymbolsLemmas
/-!
# Property C19: resolving imports through the catalog
-/
namespace Ion.Catalog.Spec
open Ion

/-- Register the tables of a history one after the other, in an empty catalog. -/
def registerAll (history : List SymbolTable) : Except PyErr Catalog :=
  history.foldlM (fun c t => Catalog.register c t) []

/-- The table a registration history holds for (name, version): the last one registered under that pair. -/
def held : List SymbolTable → Text → Int → Option SymbolTable
  | [], _, _ => none
  | t :: ts, name, version =>
    match held ts name version with
    | some t' => some t'
    | none => if t.name = some name ∧ t.version = some version then some t else none

/-- Shared, non-substitute tables made by `shared_symbol_table`. -/
def Shared (t : SymbolTable) : Prop :=
  ∃ name version symbols imports, sharedSymbolTable name version symbols imports = .ok t

/-- The text of symbol `n` (1-based) of a table, or unknown. -/
def textAt (t : SymbolTable) (n : Nat) : Option Text := (t.symbols[n - 1]?).bind (·.text)

end Ion.Catalog.Spec

namespace Ion.Catalog
open Ion Spec SymbolTable

private theorem shared_facts {t : SymbolTable} (h : Shared t) :
    WF t ∧ t.tableType = .shared ∧ t.isSubstitute = false ∧ ∃ name version, t.name = some name ∧ t.version = some version ∧
      0 < version := by
  obtain ⟨name, version, symbols, imports, h⟩ := h
  have hw := new_wf h
  refine ⟨hw.1, hw.2.1, hw.2.2.2.2, name, version, hw.2.2.1, hw.2.2.2.1, ?_⟩
  apply Classical.byContradiction; intro hc
  have : version ≤ 0 := by omega
  simp [sharedSymbolTable, new, TableType.isSystem, TableType.isShared, this] at h

/-- What a catalog built from a history answers. -/
private structure Holds (c : Catalog) (history : List SymbolTable) : Prop where
  holds : ∀ name version, ((PyDict.get c (some name)).bind fun v => PyDict.get v (some version)) = held history name version
  absent : ∀ name, PyDict.get c (some name) = none ↔ ∀ version, held history name version = none
  keys : ∀ name vs k, PyDict.get c (Option.some name) = Option.some vs → k ∈ PyDict.keys vs → ∃ v : Int, k = Option.some v

private theorem held_append (ts : List SymbolTable) (t : SymbolTable) (name : Text) (version : Int) :
    held (ts ++ [t]) name version =
      if t.name = some name ∧ t.version = some version then some t else held ts name version := by
  induction ts with
  | nil => simp [held]
  | cons s ts ih =>
    simp only [List.cons_append, held, ih]
    by_cases h : t.name = some name ∧ t.version = some version
    · simp [h]
    · simp only [h, if_false]

private theorem register_holds {c : Catalog} {history : List SymbolTable} {t : SymbolTable} (hc : Holds c history)
    (ht : Shared t) : ∃ c', Catalog.register c t = .ok c' ∧ Holds c' (history ++ [t]) := by
  obtain ⟨_, htt, hsub, name, version, hn, hv, hpos⟩ := shared_facts ht
  refine ⟨PyDict.set c t.name (PyDict.set ((PyDict.get c t.name).getD []) t.version t), ?_, ?_⟩
  · simp [Catalog.register, htt, hsub, TableType.isSystem, TableType.isShared]
  · rw [hn, hv]
    refine ⟨?_, ?_, ?_⟩
    · intro name' version'
      rw [held_append, hn, hv, PyDict.get_set]
      by_cases h1 : name' = name
      · subst h1
        simp only [if_true, Option.bind_some, PyDict.get_set, Option.some.injEq, true_and]
        by_cases h2 : version' = version
        · subst h2; simp
        · have : ¬ version = version' := fun h => h2 h.symm
          simp only [h2, if_false, this]
          rw [← hc.holds name' version']
          cases PyDict.get c (some name') <;> simp
      · have : ¬ name = name' := fun h => h1 h.symm
        simp only [Option.some.injEq, h1, if_false, this, false_and]
        exact hc.holds name' version'
    · intro name'
      rw [PyDict.get_set]
      by_cases h1 : name' = name
      · subst h1
        simp only [if_true, reduceCtorEq, false_iff]
        intro hall
        have := hall version
        rw [held_append] at this
        simp [hn, hv] at this
      · have : ¬ name = name' := fun h => h1 h.symm
        simp only [Option.some.injEq, h1, if_false]
        rw [hc.absent name']
        constructor
        · intro h v; rw [held_append]; simp [hn, this, h v]
        · intro h v; have := h v; rw [held_append] at this; simpa [hn, ‹¬ name = name'›] using this
    · intro name' vs k hg hk
      rw [PyDict.get_set] at hg
      by_cases h1 : name' = name
      · subst h1
        simp only [if_true, Option.some.injEq] at hg
        subst hg
        rw [PyDict.mem_keys_iff, PyDict.get_set] at hk
        by_cases h2 : k = Option.some version
        · exact ⟨version, h2⟩
        · simp only [h2, if_false] at hk
          rw [← PyDict.mem_keys_iff] at hk
          cases hgc : PyDict.get c (Option.some name') with
          | none => rw [hgc] at hk; simp [PyDict.keys] at hk
          | some vs => rw [hgc] at hk; exact hc.keys name' vs k hgc hk
      · simp only [Option.some.injEq, h1, if_false] at hg
        exact hc.keys name' vs k hg hk

private theorem registerAll_holds (history : List SymbolTable) (h : ∀ t ∈ history, Shared t) :
    ∃ c, registerAll history = .ok c ∧ Holds c history := by
  have key : ∀ (ts pre : List SymbolTable) (c : Catalog), (∀ t ∈ ts, Shared t) → Holds c pre →
      ∃ c', ts.foldlM (fun c t => Catalog.register c t) c = .ok c' ∧ Holds c' (pre ++ ts) := by
    intro ts
    induction ts with
    | nil => intro pre c _ hc; exact ⟨c, rfl, by simpa using hc⟩
    | cons t ts ih =>
      intro pre c hs hc
      obtain ⟨c1, h1, hc1⟩ := register_holds hc (hs t (by simp))
      obtain ⟨c2, h2, hc2⟩ := ih (pre ++ [t]) c1 (fun x hx => hs x (by simp [hx])) hc1
      refine ⟨c2, ?_, by simpa using hc2⟩
      rw [List.foldlM_cons, h1]; exact h2
  have := key history [] [] h ⟨by intros; rfl, by intro; simp [held], by intro _ _ _ h; simp at h⟩
  simpa [registerAll] using this

private theorem foldl_max (ks : List (Option Int)) (k : Option Int) :
    let m := ks.foldl (fun m k => if (m.getD 0) < (k.getD 0) then k else m) k
    (m = k ∨ m ∈ ks) ∧ k.getD 0 ≤ m.getD 0 ∧ ∀ x ∈ ks, x.getD 0 ≤ m.getD 0 := by
  induction ks generalizing k with
  | nil => simp
  | cons a ks ih =>
    simp only [List.foldl_cons]
    obtain ⟨h1, h2, h3⟩ := ih (if (k.getD 0) < (a.getD 0) then a else k)
    generalize ks.foldl (fun m k => if (m.getD 0) < (k.getD 0) then k else m) (if (k.getD 0) < (a.getD 0) then a else k)
      = m at *
    refine ⟨?_, ?_, ?_⟩
    · rcases h1 with h1 | h1
      · by_cases hlt : (k.getD 0) < (a.getD 0)
        · rw [if_pos hlt] at h1; right; simp [h1]
        · rw [if_neg hlt] at h1; left; exact h1
      · right; simp [h1]
    · split at h2 <;> omega
    · intro x hx
      rcases List.mem_cons.1 hx with rfl | hx
      · split at h2 <;> omega
      · exact h3 x hx

private theorem maxVersion_spec (ks : List (Option Int)) (hne : ks ≠ []) (hs : ∀ k ∈ ks, ∃ v : Int, k = some v) :
    ∃ v : Int, maxVersion ks = some (some v) ∧ some v ∈ ks ∧ ∀ v' : Int, some v' ∈ ks → v' ≤ v := by
  cases ks with
  | nil => exact absurd rfl hne
  | cons k ks =>
    obtain ⟨h1, h2, h3⟩ := foldl_max ks k
    simp only [maxVersion]
    generalize ks.foldl (fun m k => if (m.getD 0) < (k.getD 0) then k else m) k = m at *
    have hm : m ∈ k :: ks := by rcases h1 with h1 | h1 <;> simp [h1]
    obtain ⟨v, rfl⟩ := hs m hm
    refine ⟨v, rfl, hm, ?_⟩
    intro v' hv'
    rcases List.mem_cons.1 hv' with rfl | hv'
    · simpa using h2
    · simpa using h3 _ hv'

/-- The table from which a substitute is derived: the exact version if held, otherwise the highest held version. -/
private theorem base_exists {c : Catalog} {history : List SymbolTable} (hc : Holds c history) (name : Text)
    (vs : PyDict (Option Int) SymbolTable) (hvs : PyDict.get c (some name) = some vs)
    (version : Int) (_ : held history name version = none) :
    ∃ v t, maxVersion (PyDict.keys vs) = some (some v) ∧ PyDict.get vs (some v) = some t ∧
      held history name v = some t ∧ ∀ v' t', held history name v' = some t' → v' ≤ v := by
  have hmem : ∀ v : Int, some v ∈ PyDict.keys vs ↔ (held history name v).isSome := by
    intro v
    rw [PyDict.mem_keys_iff, ← hc.holds name v, hvs]; rfl
  have hne : PyDict.keys vs ≠ [] := by
    intro he
    have : PyDict.get c (some name) = none := by
      rw [hc.absent]
      intro v
      have := hmem v
      rw [he] at this
      simpa using this
    rw [hvs] at this; simp at this
  obtain ⟨v, h1, h2, h3⟩ := maxVersion_spec _ hne (fun k hk => hc.keys name vs k hvs hk)
  obtain ⟨t, ht⟩ := Option.isSome_iff_exists.1 ((hmem v).1 h2)
  refine ⟨v, t, h1, ?_, ht, ?_⟩
  · have := hc.holds name v
    rw [hvs, ht] at this
    simpa using this
  · intro v' t' h'
    exact h3 v' ((hmem v').2 (by simp [h']))

private theorem held_version {history : List SymbolTable} {name : Text} {version : Int} {t : SymbolTable}
    (h : held history name version = some t) : t ∈ history ∧ t.name = some name ∧ t.version = some version := by
  induction history with
  | nil => simp [held] at h
  | cons s ts ih =>
    simp only [held] at h
    split at h
    · rename_i t' ht'
      cases h
      obtain ⟨h1, h2⟩ := ih ht'
      exact ⟨by simp [h1], h2⟩
    · split at h
      · rename_i hc; cases h; exact ⟨by simp, hc⟩
      · simp at h

/-- What a substitute must look like: requested name and version, exactly `n` symbols, texts of `base` as far as they go
and unknown beyond. -/
def IsSubstituteOf (s : SymbolTable) (base : Option SymbolTable) (name : Text) (version : Int) (n : Nat) : Prop :=
  s.name = some name ∧ s.version = some version ∧ s.isSubstitute = true ∧ s.tableType = .shared ∧
  s.maxId = n ∧ s.symbols.length = n ∧
  ∀ k, 0 < k → k ≤ n → textAt s k = (base.bind fun b => textAt b k)

private theorem substitute_spec {t : SymbolTable} (ht : Shared t) {name : Text} (hn : t.name = some name) (version : Int)
    (hv : 0 < version) (n : Nat) :
    ∃ s, substituteSymbolTable t version n = .ok s ∧ IsSubstituteOf s (some t) name version n := by
  obtain ⟨hw, htt, _⟩ := shared_facts ht
  have hv' : ¬ version ≤ 0 := by omega
  have hn0 : ¬ (n : Int) < 0 := by omega
  unfold substituteSymbolTable
  simp only [htt, TableType.isShared, Bool.not_true, Bool.false_eq_true, if_false, hv', hn0]
  rw [hn]
  have hm := hw.maxId
  generalize hsyms : (if (n : Int) ≤ t.maxId then (t.symbols.take (n : Int).toNat).map (·.text)
      else t.symbols.map (·.text) ++ List.replicate ((n : Int) - t.maxId).toNat none) = syms
  have hlen : syms.length = n := by
    rw [← hsyms]; split <;> simp <;> omega
  have hget : ∀ i < n, syms[i]? = some (textAt t (i + 1)) := by
    intro i hi
    rw [← hsyms]
    simp only [textAt, Nat.add_sub_cancel]
    split
    · rw [List.getElem?_map, List.getElem?_take_of_lt (by simpa using hi), List.getElem?_eq_getElem (by omega)]
      rfl
    · by_cases h : i < t.symbols.length
      · rw [List.getElem?_append_left (by simpa using h), List.getElem?_map, List.getElem?_eq_getElem h]; rfl
      · rw [List.getElem?_append_right (by simpa using h), List.getElem?_replicate, List.getElem?_eq_none (by omega)]
        simp; omega
  obtain ⟨s, hs, hws, h1, h2, h3, h4, _, htx⟩ := new_shared_spec syms name version hv none true
  simp only [Option.getD_none, List.flatMap_nil, List.nil_append] at htx
  have hsl : s.symbols.length = n := by have := congrArg List.length htx; simpa [hlen] using this
  refine ⟨s, hs, h2, h3, h4, h1, by rw [hws.maxId, hsl], hsl, ?_⟩
  intro k hk hkn
  have h5 := hget (k - 1) (by omega)
  rw [← htx, List.getElem?_map] at h5
  rw [show k - 1 + 1 = k by omega] at h5
  rw [Option.bind_some]
  rw [← Option.some.injEq, ← h5]
  simp only [textAt]
  rw [List.getElem?_eq_getElem (by omega)]; rfl

private theorem placeholder_spec (name : Text) (version : Int) (hv : 0 < version) (n : Nat) :
    ∃ s, placeholderSymbolTable name version n = .ok s ∧ IsSubstituteOf s none name version n := by
  have hv' : ¬ version ≤ 0 := by omega
  have hn0 : ¬ (n : Int) < 0 := by omega
  unfold placeholderSymbolTable
  simp only [hv', hn0, if_false]
  obtain ⟨s, hs, hws, h1, h2, h3, h4, _, htx⟩ :=
    new_shared_spec (List.replicate (n : Int).toNat none) name version hv none true
  simp only [Option.getD_none, List.flatMap_nil, List.nil_append] at htx
  have hsl : s.symbols.length = n := by have := congrArg List.length htx; simpa using this
  refine ⟨s, hs, h2, h3, h4, h1, by rw [hws.maxId, hsl], hsl, ?_⟩
  intro k hk hkn
  have h5 : (s.symbols.map (·.text))[k - 1]? = some none := by
    rw [htx, List.getElem?_replicate]; simp; omega
  rw [List.getElem?_map, List.getElem?_eq_getElem (by omega)] at h5
  simp only [Option.map_some, Option.some.injEq] at h5
  simp only [textAt, Option.bind_none]
  rw [List.getElem?_eq_getElem (by omega)]
  exact h5

/-- **C19** Every history of registrations of shared tables is accepted, and resolving any request then gives:
the held table if version and `max_id` match exactly (or no `max_id` was given); otherwise, given `max_id`, a
substitute of the exact version if held, else of the highest held version, else (unknown name) an all-unknown
placeholder; without `max_id` and without an exact version, `CannotSubstituteTable`. -/
theorem C19_resolve (history : List SymbolTable) (hs : ∀ t ∈ history, Shared t) (name : Text) (version : Int)
    (hv : 0 < version) :
    ∃ c, registerAll history = .ok c ∧
      -- exact match
      (∀ t, held history name version = some t →
        c.resolve name (some version) none = .ok t ∧
        c.resolve name (some version) (some t.maxId) = .ok t ∧
        ∀ n : Nat, n ≠ t.maxId → ∃ s, c.resolve name (some version) (some n) = .ok s ∧
          IsSubstituteOf s (some t) name version n) ∧
      -- another version only
      (∀ v t, held history name version = none → held history name v = some t →
        (∀ v' t', held history name v' = some t' → v' ≤ v) →
        c.resolve name (some version) none = .error .cannotSubstitute ∧
        ∀ n : Nat, ∃ s, c.resolve name (some version) (some n) = .ok s ∧ IsSubstituteOf s (some t) name version n) ∧
      -- unknown name
      ((∀ v, held history name v = none) →
        c.resolve name (some version) none = .error .cannotSubstitute ∧
        ∀ n : Nat, ∃ s, c.resolve name (some version) (some n) = .ok s ∧ IsSubstituteOf s none name version n) := by
  obtain ⟨c, hreg, hc⟩ := registerAll_holds history hs
  have hv' : ¬ version ≤ 0 := by omega
  have hn0 : ∀ n : Nat, ¬ (n : Int) < 0 := by intro n; omega
  refine ⟨c, hreg, ?_, ?_, ?_⟩
  · intro t ht
    obtain ⟨hmem, hname, hver⟩ := held_version ht
    have hvs : ∃ vs, PyDict.get c (some name) = some vs ∧ PyDict.get vs (some version) = some t := by
      have := hc.holds name version
      rw [ht] at this
      cases hg : PyDict.get c (some name) with
      | none => rw [hg] at this; simp at this
      | some vs => rw [hg] at this; exact ⟨vs, rfl, by simpa using this⟩
    obtain ⟨vs, hvs, hvt⟩ := hvs
    refine ⟨?_, ?_, ?_⟩
    · simp [resolve, hv', hvs, hvt, hver]
    · simp [resolve, hv', hvs, hvt, hver, hn0]
    · intro n hn
      obtain ⟨s, h1, h2⟩ := substitute_spec (hs t hmem) hname version hv n
      refine ⟨s, ?_, h2⟩
      have hne : ¬ (t.maxId : Int) = n := by omega
      simp [resolve, hv', hvs, hvt, hver, hn0, hne, h1]
  · intro v t hnone ht hmax
    obtain ⟨hmem, hname, hver⟩ := held_version ht
    cases hg : PyDict.get c (some name) with
    | none => have := (hc.absent name).1 hg v; rw [ht] at this; simp at this
    | some vs =>
      have hno : PyDict.get vs (some version) = none := by
        have := hc.holds name version; rw [hnone, hg] at this; simpa using this
      obtain ⟨v2, t2, g1, g2, g3, g4⟩ := base_exists hc name vs hg version hnone
      have e1 := g4 v t ht
      have e2 := hmax v2 t2 g3
      have : v2 = v := by omega
      subst this
      rw [ht] at g3; cases g3
      have hvne : ¬ v2 = version := by intro h; subst h; rw [ht] at hnone; simp at hnone
      refine ⟨?_, ?_⟩
      · simp [resolve, hv', hg, hno, g1, g2, hver, hvne]
      · intro n
        obtain ⟨s, h1, h2⟩ := substitute_spec (hs t hmem) hname version hv n
        refine ⟨s, ?_, h2⟩
        simp [resolve, hv', hg, hno, g1, g2, hver, hvne, hn0, h1]
  · intro hall
    have hg := (hc.absent name).2 hall
    refine ⟨by simp [resolve, hv', hg], ?_⟩
    intro n
    obtain ⟨s, h1, h2⟩ := placeholder_spec name version hv n
    exact ⟨s, by simp [resolve, hv', hg, hn0, h1], h2⟩

/-- **C19** Requests with a non-positive version, a missing version or a negative `max_id` are refused. -/
theorem C19_resolve_refused (c : Catalog) (name : Text) (version : Int) (maxId : Option Int) :
    c.resolve name none maxId = .error .typeError ∧
    (version ≤ 0 → c.resolve name (some version) maxId = .error .valueError) ∧
    (∀ m, m < 0 → c.resolve name (some version) (some m) = .error .valueError) := by
  refine ⟨rfl, ?_, ?_⟩
  · intro h; simp [resolve, h]
  · intro m hm; simp [resolve, hm]

/-- **C19** System, local and substitute tables cannot be registered. -/
theorem C19_register_refused (c : Catalog) (t : SymbolTable)
    (h : t.tableType ≠ .shared ∨ t.isSubstitute = true) : c.register t = .error .valueError := by
  unfold register
  rcases h with h | h
  · cases ht : t.tableType <;> simp_all [TableType.isSystem, TableType.isShared]
  · cases ht : t.tableType <;> simp_all [TableType.isSystem, TableType.isShared]

/-- A concrete history with two versions of one table meets the hypotheses. -/
example : ∃ t1 t2, Shared t1 ∧ Shared t2 ∧ held [t1, t2] [0x61] 1 = some t1 ∧ held [t1, t2] [0x61] 3 = some t2 ∧
    held [t1, t2] [0x61] 2 = none ∧ t1.maxId = 1 ∧ t2.maxId = 2 := by
  obtain ⟨t1, h1⟩ : ∃ s, sharedSymbolTable [0x61] 1 [some [0x78]] = .ok s := ⟨_, rfl⟩
  obtain ⟨t2, h2⟩ : ∃ s, sharedSymbolTable [0x61] 3 [some [0x78], some [0x79]] = .ok s := ⟨_, rfl⟩
  refine ⟨t1, t2, ⟨_, _, _, _, h1⟩, ⟨_, _, _, _, h2⟩, ?_, ?_, ?_, ?_, ?_⟩ <;> (cases h1; cases h2; decide +kernel)

end Ion.Catalog
