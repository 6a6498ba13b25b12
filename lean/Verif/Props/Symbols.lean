import Verif.SymbolsLemmas
/-!
# Properties C16–C19 (and the table part of C22, C23): symbol tables and the catalog
-/
namespace Ion.SymbolTable.Spec
open Ion

/-- The symbol tables a program can hold: results of the constructor, then any number of `intern` calls. -/
inductive Built : SymbolTable → Prop
  | new {tt symbols name version imports sub t} :
      SymbolTable.new tt symbols name version imports sub = .ok t → Built t
  | intern {t text t' tok} : Built t → t.intern text = .ok (t', tok) → Built t'

/-- A local table, as a program can hold it. -/
def LocalTable (t : SymbolTable) : Prop := Built t ∧ t.tableType = .local

/-- `tok` is the definition of symbol ID `n` in the table, the `n`-th token of the iteration order. -/
def DefinedAt (t : SymbolTable) (n : Nat) (tok : SymbolToken) : Prop :=
  0 < n ∧ t.symbols[n - 1]? = some tok

/-- `tok` is the definition of `text` with the smallest ID. -/
def FirstDefinition (t : SymbolTable) (text : Text) (tok : SymbolToken) : Prop :=
  ∃ n, DefinedAt t n tok ∧ tok.text = some text ∧ ∀ m tok', DefinedAt t m tok' → tok'.text = some text → n ≤ m

/-- Intern a list of texts one after the other, collecting the tokens. -/
def internAll : SymbolTable → List Text → Except PyErr (SymbolTable × List SymbolToken)
  | t, [] => .ok (t, [])
  | t, x :: xs => do
    let (t, tok) ← t.intern x
    let (t, toks) ← internAll t xs
    return (t, tok :: toks)

end Ion.SymbolTable.Spec

namespace Ion.SymbolTable
open Ion Spec

theorem Spec.Built.wf {t : SymbolTable} (h : Built t) : WF t := by
  induction h with
  | new h => exact (new_wf h).1
  | intern _ h ih =>
    rename_i t text t' tok _
    unfold SymbolTable.intern at h
    split at h
    · simp at h
    · split at h
      · cases h; exact ih
      · cases h; exact addText_wf ih _

private theorem find?_first {l : List SymbolToken} {text : Text} {tok : SymbolToken}
    (h : l.find? (fun k => k.text = some text) = some tok) :
    ∃ i, l[i]? = some tok ∧ tok.text = some text ∧
      ∀ (j : Nat) (tok' : SymbolToken), l[j]? = some tok' → tok'.text = some text → i ≤ j := by
  induction l with
  | nil => simp at h
  | cons k l ih =>
    by_cases hk : k.text = some text
    · rw [List.find?_cons_of_pos (by simpa using hk)] at h
      cases h
      exact ⟨0, by simp, hk, by omega⟩
    · rw [List.find?_cons_of_neg (by simpa using hk)] at h
      obtain ⟨i, h1, h2, h3⟩ := ih h
      refine ⟨i + 1, by simpa using h1, h2, ?_⟩
      intro j tok' hj ht
      cases j with
      | zero => simp at hj; subst hj; exact absurd ht hk
      | succ j => have := h3 j tok' (by simpa using hj) ht; omega

private theorem find?_eq_of_first {l : List SymbolToken} {text : Text} {tok : SymbolToken} {i : Nat}
    (h1 : l[i]? = some tok) (h2 : tok.text = some text)
    (h3 : ∀ (j : Nat) (tok' : SymbolToken), l[j]? = some tok' → tok'.text = some text → i ≤ j) :
    l.find? (fun k => k.text = some text) = some tok := by
  cases hf : l.find? (fun k => k.text = some text) with
  | none =>
    rw [List.find?_eq_none] at hf
    have := hf tok (List.mem_of_getElem? h1)
    simp [h2] at this
  | some tok2 =>
    obtain ⟨j, g1, g2, g3⟩ := find?_first hf
    have := h3 j tok2 g1 g2
    have := g3 i tok h1 h2
    have : i = j := by omega
    subst this; rw [h1] at g1; exact g1.symm

/-! ## C17 — lookup -/

/-- **C17** Lookup by text returns the first definition, and `none` only if the text is not defined. -/
theorem C17_get_text (t : SymbolTable) (h : Built t) (text : Text) (tok : SymbolToken) :
    t.get (.text text) none = some tok ↔ FirstDefinition t text tok := by
  have hw := h.wf
  simp only [get, getText, hw.mapping text]
  constructor
  · intro hf
    obtain ⟨i, h1, h2, h3⟩ := find?_first hf
    refine ⟨i + 1, ⟨by omega, by simpa using h1⟩, h2, ?_⟩
    intro m tok' hm ht
    have := h3 (m - 1) tok' hm.2 ht
    have := hm.1
    omega
  · rintro ⟨n, ⟨hn, h1⟩, h2, h3⟩
    apply find?_eq_of_first h1 h2
    intro j tok' hj ht
    have := h3 (j + 1) tok' ⟨by omega, by simpa using hj⟩ ht
    omega

/-- **C17** A text that no token bears is not found (whatever default is passed: see `C17_default_ignored`). -/
theorem C17_get_text_absent (t : SymbolTable) (h : Built t) (text : Text)
    (ha : ∀ n tok, DefinedAt t n tok → tok.text ≠ some text) (d : Option SymbolToken) :
    t.get (.text text) d = none ∧ t.getItem (.text text) = .error .keyError := by
  have : PyDict.get t.mapping text = none := by
    rw [h.wf.mapping text, List.find?_eq_none]
    intro tok ht
    obtain ⟨i, hi, rfl⟩ := List.getElem_of_mem ht
    have := ha (i + 1) t.symbols[i] ⟨by omega, by simp [hi]⟩
    simpa using this
  simp [get, getText, getItem, this]

/-- **C17** Lookup by ID: `0` is the unknown symbol, an ID in range is the token defined at that ID, and the token
carries that ID; any other integer yields the caller's default. -/
theorem C17_get_sid (t : SymbolTable) (h : Built t) (d : Option SymbolToken) :
    t.get (.sid 0) d = some ⟨none, some 0, none⟩ ∧
    (∀ n : Nat, 0 < n → n ≤ t.maxId → ∃ tok, DefinedAt t n tok ∧ tok.sid = some n ∧ t.get (.sid n) d = some tok) ∧
    (∀ i : Int, i < 0 ∨ (t.maxId : Int) < i → t.get (.sid i) d = d ∧
      (d = none → t.getItem (.sid i) = .error .keyError)) := by
  have hw := h.wf
  refine ⟨rfl, ?_, ?_⟩
  · intro n hn hle
    obtain ⟨h1, h2⟩ := hw.getSid_eq n hn hle d
    obtain ⟨tok, ht⟩ := Option.isSome_iff_exists.1 h2
    refine ⟨tok, ⟨hn, ht⟩, ?_, by simp only [get]; rw [h1, ht]⟩
    have hlt : n - 1 < t.symbols.length := by have := hw.maxId; omega
    rw [List.getElem?_eq_getElem hlt] at ht
    cases ht
    rw [hw.sids (n - 1) hlt]
    congr 1; omega
  · intro i hi
    have hm := hw.maxId
    have key : ∀ d, t.getSid i d = d := by
      intro d
      unfold getSid
      rw [if_neg (by omega), if_pos (by simp; omega)]
    refine ⟨key d, ?_⟩
    intro _
    simp [getItem, get, key none]

/-- **C17, negative** The claim "an absent text yields the caller's default" is false of the code: the `default`
argument is ignored for text keys (`symbols.py:294`). -/
theorem C17_default_ignored :
    ∃ (t : SymbolTable) (text : Text) (d : SymbolToken), Built t ∧ (∀ n tok, DefinedAt t n tok → tok.text ≠ some text) ∧
      t.get (.text text) (some d) ≠ some d := by
  obtain ⟨t, ht, hw, _, _, _, _, hc⟩ := new_local_spec [] none false
  refine ⟨t, [0x78], SYMBOL_ZERO_TOKEN, .new ht, ?_, ?_⟩
  · intro n tok hd heq
    have hmem := List.mem_of_getElem? hd.2
    have : (tok.text, tok.location) ∈ t.contents := List.mem_map.2 ⟨tok, hmem, rfl⟩
    rw [hc, heq] at this
    simp [SYSTEM_SYMBOL_TOKENS, systemSymbolToken, TEXT_ION, TEXT_ION_1_0, TEXT_ION_SYMBOL_TABLE, TEXT_NAME,
      TEXT_VERSION, TEXT_IMPORTS, TEXT_SYMBOLS, TEXT_MAX_ID, TEXT_ION_SHARED_SYMBOL_TABLE] at this
  · have : PyDict.get t.mapping [0x78] = none := by
      rw [hw.mapping, List.find?_eq_none]
      intro tok hmem
      have : (tok.text, tok.location) ∈ t.contents := List.mem_map.2 ⟨tok, hmem, rfl⟩
      rw [hc] at this
      intro heq
      simp only [decide_eq_true_eq] at heq
      rw [heq] at this
      simp [SYSTEM_SYMBOL_TOKENS, systemSymbolToken, TEXT_ION, TEXT_ION_1_0, TEXT_ION_SYMBOL_TABLE, TEXT_NAME,
        TEXT_VERSION, TEXT_IMPORTS, TEXT_SYMBOLS, TEXT_MAX_ID, TEXT_ION_SHARED_SYMBOL_TABLE] at this
    simp [get, getText, this]

/-! ## C16 — interning -/

private theorem intern_local {t : SymbolTable} (h : LocalTable t) (text : Text) :
    (∃ tok, t.intern text = .ok (t, tok) ∧ t.getText text = some tok) ∨
    (t.getText text = none ∧ t.intern text = .ok (t.addText (some text))) := by
  unfold SymbolTable.intern
  rw [if_neg (by rw [h.2]; simp [TableType.isShared])]
  cases hg : t.getText text with
  | none => exact .inr ⟨rfl, rfl⟩
  | some tok => exact .inl ⟨tok, rfl, rfl⟩

/-- **C16** One `intern` call on any local table: it succeeds; the token bears the text and is what lookup by its ID
returns; no existing ID changes meaning; at most one ID is allocated, the next one; `max_id` is the number of symbols. -/
theorem C16_intern (t : SymbolTable) (h : LocalTable t) (text : Text) :
    ∃ t' tok n, t.intern text = .ok (t', tok) ∧ LocalTable t' ∧
      tok.text = some text ∧ tok.sid = some n ∧ 0 < n ∧ n ≤ t'.maxId ∧ t'.get (.sid n) none = some tok ∧
      t'.get (.text text) none = some tok ∧
      (∀ m ≤ t.maxId, t'.get (.sid m) none = t.get (.sid m) none) ∧
      t'.maxId = t'.symbols.length ∧
      (t' = t ∨ t'.maxId = t.maxId + 1 ∧ n = t.maxId + 1) := by
  have hw := h.1.wf
  rcases intern_local h text with ⟨tok, hi, hg⟩ | ⟨hg, hi⟩
  · have hfd := (C17_get_text t h.1 text tok).1 hg
    obtain ⟨n, ⟨hn, hd⟩, htx, _⟩ := hfd
    have hlt : n - 1 < t.symbols.length := by
      apply Classical.byContradiction; intro hc
      rw [List.getElem?_eq_none (by omega)] at hd; simp at hd
    have hle : n ≤ t.maxId := by have := hw.maxId; omega
    refine ⟨t, tok, n, hi, h, htx, ?_, hn, hle, ?_, hg, fun _ _ => rfl, hw.maxId, .inl rfl⟩
    · rw [List.getElem?_eq_getElem hlt] at hd; cases hd
      rw [hw.sids (n - 1) hlt]; congr 1; omega
    · simp only [get]; rw [(hw.getSid_eq n hn hle none).1, hd]
  · have hb' : Built (t.addText (some text)).1 := .intern h.1 hi
    have hw' := hb'.wf
    have hmax : (t.addText (some text)).1.maxId = t.maxId + 1 := rfl
    have hsym : (t.addText (some text)).1.symbols = t.symbols ++ [(t.addText (some text)).2] := rfl
    have hlast : (t.addText (some text)).1.symbols[t.maxId]? = some (t.addText (some text)).2 := by
      rw [hsym, hw.maxId]; simp
    refine ⟨(t.addText (some text)).1, (t.addText (some text)).2, t.maxId + 1, hi, ⟨hb', h.2⟩, rfl, rfl, by omega,
      by rw [hmax]; omega, ?_, ?_, ?_, hw'.maxId, .inr ⟨hmax, rfl⟩⟩
    · simp only [get]
      rw [(hw'.getSid_eq (t.maxId + 1) (by omega) (by rw [hmax]; omega) none).1]
      simpa using hlast
    · simp only [get, getText]
      rw [hw'.mapping text, hsym, List.find?_append]
      have : t.symbols.find? (fun k => decide (k.text = some text)) = none := by rw [← hw.mapping text]; exact hg
      rw [this]; simp [addText]
    · intro m hm
      simp only [get]
      by_cases h0 : m = 0
      · subst h0; rfl
      · rw [(hw'.getSid_eq m (by omega) (by rw [hmax]; omega) none).1, (hw.getSid_eq m (by omega) hm none).1, hsym]
        have := hw.maxId
        rw [List.getElem?_append_left (by omega)]

/-- **C16** Interning the same text again returns the same token and leaves the table unchanged. -/
theorem C16_intern_idempotent (t : SymbolTable) (h : LocalTable t) (text : Text) (t' : SymbolTable)
    (tok : SymbolToken) (hi : t.intern text = .ok (t', tok)) : t'.intern text = .ok (t', tok) := by
  obtain ⟨t2, tok2, n, hi2, hl, _, _, _, _, _, hg, _⟩ := C16_intern t h text
  rw [hi] at hi2; cases hi2
  unfold SymbolTable.intern
  rw [if_neg (by rw [hl.2]; simp [TableType.isShared])]
  simp only [get] at hg
  rw [hg]

/-- **C16** Any history of `intern` calls: it succeeds; IDs already assigned keep their tokens; every token handed out
during the history is still what its text and its ID mean at the end; equal texts got the same token and different
texts got different IDs. -/
theorem C16_intern_history (t : SymbolTable) (h : LocalTable t) (texts : List Text) :
    ∃ t' toks, internAll t texts = .ok (t', toks) ∧ LocalTable t' ∧ t'.maxId = t'.symbols.length ∧
      t.maxId ≤ t'.maxId ∧ t'.maxId ≤ t.maxId + texts.length ∧
      (∀ m ≤ t.maxId, t'.get (.sid m) none = t.get (.sid m) none) ∧
      toks.length = texts.length ∧
      (∀ (i : Nat) text tok, texts[i]? = some text → toks[i]? = some tok →
        tok.text = some text ∧ t'.get (.text text) none = some tok ∧
        ∃ n, tok.sid = some n ∧ t'.get (.sid n) none = some tok) := by
  induction texts generalizing t with
  | nil =>
    exact ⟨t, [], rfl, h, h.1.wf.maxId, Nat.le_refl _, by simp, fun _ _ => rfl, rfl, by simp⟩
  | cons x xs ih =>
    obtain ⟨t1, tok, n, hi, hl1, htx, hsid, hn0, hn, hgs, hgt, hold, _, hgrow⟩ := C16_intern t h x
    obtain ⟨t2, toks, hi2, hl2, hm2, hge, hle2, hold2, hlen, hall⟩ := ih t1 hl1
    have hmono : t.maxId ≤ t1.maxId := by
      rcases hgrow with rfl | ⟨h1, _⟩ <;> omega
    have hmono' : t1.maxId ≤ t.maxId + 1 := by
      rcases hgrow with rfl | ⟨h1, _⟩ <;> omega
    refine ⟨t2, tok :: toks, ?_, hl2, hm2, by omega, ?_, ?_, by simp [hlen], ?_⟩
    · simp [internAll, hi, hi2, bind, Except.bind, pure, Except.pure]
    · simp only [List.length_cons]; omega
    · intro m hm
      rw [hold2 m (by omega), hold m hm]
    · intro i text tok' h1 h2
      cases i with
      | succ i => exact hall i text tok' (by simpa using h1) (by simpa using h2)
      | zero =>
        simp at h1 h2; subst h1; subst h2
        have hgs2 : t2.get (.sid n) none = some tok := by rw [hold2 n hn]; exact hgs
        refine ⟨htx, ?_, n, hsid, hgs2⟩
        -- the first definition is unchanged because earlier IDs are unchanged
        rw [C17_get_text t2 hl2.1]
        have hw2 := hl2.1.wf
        have hw1 := hl1.1.wf
        have conv : ∀ (m : Nat), 0 < m → m ≤ t1.maxId → t2.symbols[m - 1]? = t1.symbols[m - 1]? := by
          intro m h0 hm
          have e := hold2 m hm
          simp only [get] at e
          rwa [(hw2.getSid_eq m h0 (by omega) none).1, (hw1.getSid_eq m h0 hm none).1] at e
        obtain ⟨n', hd', _, hmin⟩ := (C17_get_text t1 hl1.1 x tok).1 hgt
        have hn'lt : n' ≤ t1.maxId := by
          have := hw1.maxId
          apply Classical.byContradiction; intro hc
          have h2 := hd'.2
          rw [List.getElem?_eq_none (by omega)] at h2; simp at h2
        refine ⟨n', ⟨hd'.1, by rw [conv n' hd'.1 hn'lt]; exact hd'.2⟩, htx, ?_⟩
        intro m tok' hd ht
        by_cases hm : m ≤ t1.maxId
        · exact hmin m tok' ⟨hd.1, by rw [← conv m hd.1 hm]; exact hd.2⟩ ht
        · omega

/-- **C16** Different texts never share an ID. -/
theorem C16_ids_injective (t : SymbolTable) (h : Built t) (text₁ text₂ : Text) (tok₁ tok₂ : SymbolToken)
    (h1 : t.get (.text text₁) none = some tok₁) (h2 : t.get (.text text₂) none = some tok₂)
    (hs : tok₁.sid = tok₂.sid) : text₁ = text₂ := by
  have hw := h.wf
  obtain ⟨n1, d1, e1, _⟩ := (C17_get_text t h text₁ tok₁).1 h1
  obtain ⟨n2, d2, e2, _⟩ := (C17_get_text t h text₂ tok₂).1 h2
  have s : ∀ n tok, DefinedAt t n tok → tok.sid = some n := by
    intro n tok hd
    have hlt : n - 1 < t.symbols.length := by
      apply Classical.byContradiction; intro hc
      have h2 := hd.2
      rw [List.getElem?_eq_none (by omega)] at h2; simp at h2
    have h2 := hd.2
    rw [List.getElem?_eq_getElem hlt] at h2; cases h2
    rw [hw.sids (n - 1) hlt]
    have := hd.1
    congr 1; omega
  rw [s _ _ d1, s _ _ d2] at hs
  cases hs
  have := d1.2.symm.trans d2.2
  cases this
  rw [e1] at e2; cases e2; rfl

/-- **C16** Interning on a shared table is refused. -/
theorem C16_shared_rejected (t : SymbolTable) (h : t.tableType ≠ .local) (text : Text) :
    t.intern text = .error .typeError := by
  unfold SymbolTable.intern
  cases ht : t.tableType <;> simp_all [TableType.isShared]

/-! ## C58 — equality -/

/-- **C58** Two tables compare equal if and only if they are of the same type, name, version and substitute flag and define the same
symbol IDs, with the same tokens. -/
theorem C58_equal_iff (t u : SymbolTable) :
    t.eq u = true ↔ t.tableType = u.tableType ∧ t.name = u.name ∧ t.version = u.version ∧ t.isSubstitute = u.isSubstitute ∧
      ∀ n tok, DefinedAt t n tok ↔ DefinedAt u n tok := by
  simp only [SymbolTable.eq, Bool.and_eq_true, decide_eq_true_eq, and_assoc]
  refine and_congr_right fun _ => and_congr_right fun _ => and_congr_right fun _ => and_congr_right fun _ => ⟨fun h n tok => by simp [DefinedAt, h], fun h => List.ext_getElem? fun i => ?_⟩
  cases h1 : t.symbols[i]? with
  | some tok =>
    have := (h (i + 1) tok).1 ⟨by omega, by simpa using h1⟩
    exact (by simpa using this.2 : u.symbols[i]? = some tok).symm
  | none =>
    cases h2 : u.symbols[i]? with
    | none => rfl
    | some tok =>
      have := ((h (i + 1) tok).2 ⟨by omega, by simpa using h2⟩).2
      simp [h1] at this

/-- **C58** Tables that compare equal have the same `max_id` and answer every lookup alike. -/
theorem C58_equal_lookups (t u : SymbolTable) (ht : Built t) (hu : Built u) (h : t.eq u = true) :
    t.maxId = u.maxId ∧ ∀ key d, t.get key d = u.get key d ∧ t.getItem key = u.getItem key := by
  have hs : t.symbols = u.symbols := by
    simp only [SymbolTable.eq, Bool.and_eq_true, decide_eq_true_eq] at h
    exact h.2
  have key : ∀ key d, t.get key d = u.get key d := by
    intro key d
    cases key with
    | text k => simp only [SymbolTable.get, getText, ht.wf.mapping, hu.wf.mapping, hs]
    | sid i => simp only [SymbolTable.get, getSid, hs]
  exact ⟨by rw [ht.wf.maxId, hu.wf.maxId, hs], fun k d => ⟨key k d, by simp only [getItem, key]⟩⟩

/-- **C58** Tables that compare equal stay so under every history of `intern` calls, which gives the same tokens (or is refused by both). -/
theorem C58_equal_intern (t u : SymbolTable) (ht : Built t) (hu : Built u) (h : t.eq u = true) (texts : List Text) :
    (∃ err, internAll t texts = .error err ∧ internAll u texts = .error err) ∨
      ∃ t' u' toks, internAll t texts = .ok (t', toks) ∧ internAll u texts = .ok (u', toks) ∧ t'.eq u' = true := by
  induction texts generalizing t u with
  | nil => exact .inr ⟨t, u, [], rfl, rfl, h⟩
  | cons x xs ih =>
    have hg := ((C58_equal_lookups t u ht hu h).2 (.text x) none).1
    have hm := (C58_equal_lookups t u ht hu h).1
    simp only [SymbolTable.get] at hg
    have h' := h
    simp only [SymbolTable.eq, Bool.and_eq_true, decide_eq_true_eq] at h'
    obtain ⟨⟨⟨⟨h1, h2⟩, h3⟩, h4⟩, h5⟩ := h'
    have hcase : (t.intern x = .error .typeError ∧ u.intern x = .error .typeError) ∨ ∃ t1 u1 tok, t.intern x = .ok (t1, tok) ∧ u.intern x = .ok (u1, tok) ∧ t1.eq u1 = true := by
      unfold SymbolTable.intern
      rw [h1, hg]
      by_cases hsh : u.tableType.isShared = true
      · exact .inl ⟨if_pos hsh, if_pos hsh⟩
      · rw [if_neg hsh, if_neg hsh]
        cases u.getText x with
        | some tok => exact .inr ⟨t, u, tok, rfl, rfl, h⟩
        | none =>
          refine .inr ⟨(t.addText (some x)).1, (u.addText (some x)).1, (u.addText (some x)).2, ?_, rfl, ?_⟩
          · simp [addText, hm, h1, importLocation, h2]
          · simp [SymbolTable.eq, addText, SymbolTable.add, hm, h1, h2, h3, h4, h5, importLocation]
    rcases hcase with ⟨e1, e2⟩ | ⟨t1, u1, tok, e1, e2, he⟩
    · exact .inl ⟨.typeError, by simp [internAll, e1, bind, Except.bind], by simp [internAll, e2, bind, Except.bind]⟩
    · rcases ih t1 u1 (.intern ht e1) (.intern hu e2) he with ⟨err, k1, k2⟩ | ⟨t', u', toks, k1, k2, k3⟩
      · exact .inl ⟨err, by simp [internAll, e1, k1, bind, Except.bind], by simp [internAll, e2, k2, bind, Except.bind]⟩
      · exact .inr ⟨t', u', tok :: toks, by simp [internAll, e1, k1, bind, Except.bind, pure, Except.pure], by simp [internAll, e2, k2, bind, Except.bind, pure, Except.pure], k3⟩

/-- A local table in which `a` was interned is equal to one that was made with the symbol `a`. -/
example : ∃ t u v tok, SymbolTable.new .local [] = .ok t ∧ SymbolTable.new .local [some [97]] = .ok u ∧ t.intern [97] = .ok (v, tok) ∧
    v.eq u = true ∧ t.eq u = false ∧ Built u ∧ Built v := by
  have h : ∃ t u v tok, SymbolTable.new .local [] = .ok t ∧ SymbolTable.new .local [some [97]] = .ok u ∧ t.intern [97] = .ok (v, tok) ∧ v.eq u = true ∧ t.eq u = false :=
    ⟨_, _, _, _, rfl, rfl, rfl, by decide, by decide⟩
  obtain ⟨t, u, v, tok, h1, h2, h3, h4, h5⟩ := h
  exact ⟨t, u, v, tok, h1, h2, h3, h4, h5, .new h2, .intern (.new h1) h3⟩

/-! ## C18 — layout -/

/-- **C18** A local table whose imports are shared tables: system symbols, then each import in order, then the local
symbols, numbered consecutively from 1; imported tokens keep the location they have in their own table. -/
theorem C18_local_layout (imports : List SymbolTable) (hsh : ∀ s ∈ imports, s.tableType ≠ .local)
    (symbols : List (Option Text)) :
    ∃ t, localSymbolTable (some imports) symbols = .ok t ∧
      t.symbols.map (·.text) = SYSTEM_SYMBOL_TOKENS.map (·.text) ++
        (imports.flatMap fun s => s.symbols.map (·.text)) ++ symbols ∧
      t.symbols.map (·.location) = SYSTEM_SYMBOL_TOKENS.map (·.location) ++
        (imports.flatMap fun s => s.symbols.map (·.location)) ++ symbols.map (fun _ => none) ∧
      (∀ i (h : i < t.symbols.length), (t.symbols[i]).sid = some (i + 1)) ∧
      t.maxId = 9 + (imports.map fun s => s.symbols.length).sum + symbols.length := by
  obtain ⟨t, ht, hw, _, _, _, _, hc⟩ := new_local_spec symbols (some imports) false
  have himp : (imports.flatMap fun table =>
      (table.symbols.filter fun k => importable table k).map fun k => (k.text, k.location)) =
      imports.flatMap fun s => s.symbols.map fun k => (k.text, k.location) := by
    rw [List.flatMap_def, List.flatMap_def]
    congr 1
    apply List.map_congr_left
    intro s hs
    congr 1
    apply List.filter_eq_self.2
    intro k _
    have := hsh s hs
    cases hst : s.tableType <;> simp_all [importable, TableType.isLocal]
  rw [Option.getD_some, himp] at hc
  have ht1 := congrArg (List.map (·.1)) hc
  have ht2 := congrArg (List.map (·.2)) hc
  simp only [contents, List.map_append, List.map_map, Function.comp_def, List.map_flatMap, List.map_id'] at ht1 ht2
  refine ⟨t, ht, ht1, ht2, hw.sids, ?_⟩
  have := congrArg List.length ht1
  simp only [List.length_map, List.length_append, List.length_flatMap] at this
  rw [hw.maxId, this]
  rfl

/-- **C18** A shared table: its imports' texts in order, then its own symbols, numbered from 1, each located at itself. -/
theorem C18_shared_layout (name : Text) (version : Int) (hv : 0 < version) (symbols : List (Option Text))
    (imports : Option (List SymbolTable)) :
    ∃ t, sharedSymbolTable name version symbols imports = .ok t ∧ t.name = some name ∧ t.version = some version ∧
      t.symbols.map (·.text) = ((imports.getD []).flatMap fun s => s.symbols.map (·.text)) ++ symbols ∧
      (∀ i (h : i < t.symbols.length), (t.symbols[i]).sid = some (i + 1) ∧
        (t.symbols[i]).location = some ⟨name, i + 1⟩) ∧
      t.maxId = t.symbols.length := by
  obtain ⟨t, ht, hw, _, hn, hver, _, hl, htx⟩ := new_shared_spec symbols name version hv imports false
  refine ⟨t, ht, hn, hver, htx, ?_, hw.maxId⟩
  intro i hi
  refine ⟨hw.sids i hi, ?_⟩
  rw [hl i hi, hn]; rfl

/-- **C18** A shared table must have a positive version. -/
theorem C18_shared_version (name : Text) (version : Int) (hv : version ≤ 0) (symbols : List (Option Text))
    (imports : Option (List SymbolTable)) : sharedSymbolTable name version symbols imports = .error .valueError := by
  simp [sharedSymbolTable, new, TableType.isSystem, TableType.isShared, hv]

-- the layout of a concrete local table with one import of two symbols
example : (do
      let s ← sharedSymbolTable [0x73] 1 [some [0x61], none]
      let t ← localSymbolTable (some [s]) [some [0x62]]
      pure (t.maxId, (t.getText [0x62]).map (·.sid), (t.getText [0x61]).map (·.sid)) : Except PyErr _)
    = .ok (12, some (some 12), some (some 10)) := by decide +kernel

/-! ## C23 — appending to a local symbol table (table part) -/

/-- Tokens of a local table beyond the nine system symbols whose location names the system table: there are none
unless a *shared table named `$ion`* was imported. -/
def NoForeignIon (t : SymbolTable) : Prop :=
  ∀ tok ∈ t.symbols.drop 9, tok.location.map (·.name) ≠ some TEXT_ION

private theorem system_contents_drop {t : SymbolTable} (h : LocalTable t) :
    t.contents.take 9 = SYSTEM_SYMBOL_TOKENS.map (fun k => (k.text, k.location)) := by
  obtain ⟨hb, hl⟩ := h
  induction hb with
  | new h =>
    rename_i tt symbols name version imports sub t
    have hw := new_wf h
    obtain rfl : tt = .local := by rw [← hw.2.1]; exact hl
    cases name with
    | some _ => simp [new, TableType.isSystem, TableType.isShared, TableType.isLocal] at h
    | none =>
      cases version with
      | some _ => simp [new, TableType.isSystem, TableType.isShared, TableType.isLocal] at h
      | none =>
        obtain ⟨t', e, _, _, _, _, _, hc⟩ := new_local_spec symbols imports sub
        rw [e] at h; cases h
        rw [hc, List.append_assoc, List.take_append_of_le_length (by simp [SYSTEM_SYMBOL_TOKENS])]
        apply List.take_of_length_le; simp [SYSTEM_SYMBOL_TOKENS]
  | intern hb' hi ih =>
    rename_i t text t' tok
    unfold SymbolTable.intern at hi
    split at hi
    · simp at hi
    · split at hi
      · cases hi; exact ih hl
      · cases hi
        have hl' : t.tableType = .local := hl
        have := ih hl'
        have hlen : 9 ≤ t.contents.length := by
          have := congrArg List.length this
          simp [SYSTEM_SYMBOL_TOKENS] at this; omega
        simp only [addText, add, contents, List.map_append] at this ⊢
        rw [List.take_append_of_le_length (by simpa [contents] using hlen)]
        exact this

/-- **C23** (table part) Building a local table that imports the previous local table and defines new symbols keeps
every ID of the previous table with the same text, and gives the new symbols the next IDs — provided no shared table
named `$ion` was imported before. -/
theorem C23_append_table_partial (prev : SymbolTable) (h : LocalTable prev) (hion : NoForeignIon prev)
    (symbols : List (Option Text)) :
    ∃ t, SymbolTable.new .local symbols (imports := some [prev]) = .ok t ∧ LocalTable t ∧ NoForeignIon t ∧
      (∀ m ≤ prev.maxId, t.get (.sid m) none = prev.get (.sid m) none) ∧
      t.maxId = prev.maxId + symbols.length ∧
      (∀ i (hi : i < symbols.length), t.get (.sid (prev.maxId + 1 + i : Nat)) none
        = some ⟨symbols[i], some (prev.maxId + 1 + i), none⟩) := by
  obtain ⟨t, ht, hw, hloc, _, _, _, hc⟩ := new_local_spec symbols (some [prev]) false
  have hsys := system_contents_drop h
  have hpw := h.1.wf
  have hlen9 : 9 ≤ prev.symbols.length := by
    have := congrArg List.length hsys
    simp [SYSTEM_SYMBOL_TOKENS, contents] at this; omega
  -- the tokens that are imported are exactly those beyond the system symbols
  have hfilter : (prev.symbols.filter fun k => importable prev k) = prev.symbols.drop 9 := by
    conv => lhs; rw [← List.take_append_drop 9 prev.symbols]
    rw [List.filter_append]
    have h1 : (prev.symbols.take 9).filter (fun k => importable prev k) = [] := by
      rw [List.filter_eq_nil_iff]
      intro k hk
      have : (k.text, k.location) ∈ prev.contents.take 9 := by
        rw [contents, ← List.map_take]; exact List.mem_map.2 ⟨k, hk, rfl⟩
      rw [hsys] at this
      obtain ⟨s, hs, he⟩ := List.mem_map.1 this
      have hsl : ∀ s ∈ SYSTEM_SYMBOL_TOKENS, s.location.map (·.name) = some TEXT_ION := by decide
      have hse := hsl s hs
      simp only [Prod.mk.injEq] at he
      rw [he.2] at hse
      cases hkl : k.location with
      | none => rw [hkl] at hse; simp at hse
      | some l => rw [hkl] at hse; simp at hse; simp [importable, h.2, TableType.isLocal, hkl, hse]
    have h2 : (prev.symbols.drop 9).filter (fun k => importable prev k) = prev.symbols.drop 9 := by
      rw [List.filter_eq_self]
      intro k hk
      cases hkl : k.location with
      | none => simp [importable, hkl]
      | some l => have := hion k hk; rw [hkl] at this; simp at this; simp [importable, hkl, this]
    rw [h1, h2]; rfl
  have hcont : t.contents = prev.contents ++ symbols.map fun s => (s, none) := by
    rw [hc]
    simp only [Option.getD_some, List.flatMap_cons, List.flatMap_nil, List.append_nil]
    rw [hfilter]
    congr 1
    rw [← hsys]
    conv => rhs; rw [← List.take_append_drop 9 prev.contents]
    simp [contents, List.map_drop]
  have hlenT : t.symbols.length = prev.symbols.length + symbols.length := by
    have := congrArg List.length hcont
    simpa [contents] using this
  have hbuilt : Built t := .new ht
  have hmax : t.maxId = prev.maxId + symbols.length := by rw [hw.maxId, hpw.maxId, hlenT]
  have hget : ∀ i (hi : i < t.symbols.length) (c : Content), t.contents[i]? = some c →
      t.symbols[i]? = some ⟨c.1, some (i + 1), c.2⟩ := by
    intro i hi c hcc
    rw [contents, List.getElem?_map, List.getElem?_eq_getElem hi] at hcc
    simp only [Option.map_some, Option.some.injEq] at hcc
    rw [List.getElem?_eq_getElem hi]
    have := hw.sids i hi
    subst hcc
    cases hk : t.symbols[i]; rw [hk] at this; simp at this; simp [this]
  refine ⟨t, ht, ⟨hbuilt, hloc⟩, ?_, ?_, hmax, ?_⟩
  · intro tok htok
    have hmem : (tok.text, tok.location) ∈ t.contents.drop 9 := by
      rw [contents, ← List.map_drop]; exact List.mem_map.2 ⟨tok, htok, rfl⟩
    rw [hcont, List.drop_append_of_le_length (by simpa [contents] using hlen9)] at hmem
    rcases List.mem_append.1 hmem with hm | hm
    · rw [contents, ← List.map_drop] at hm
      obtain ⟨k, hk, he⟩ := List.mem_map.1 hm
      simp only [Prod.mk.injEq] at he
      rw [← he.2]; exact hion k hk
    · obtain ⟨s, _, he⟩ := List.mem_map.1 hm
      simp only [Prod.mk.injEq] at he
      rw [← he.2]; simp
  · intro m hm
    simp only [get]
    by_cases h0 : m = 0
    · subst h0; rfl
    · rw [(hw.getSid_eq m (by omega) (by omega) none).1, (hpw.getSid_eq m (by omega) hm none).1]
      have hp : m - 1 < prev.symbols.length := by have := hpw.maxId; omega
      rw [hget (m - 1) (by omega) ((prev.symbols[m - 1]).text, (prev.symbols[m - 1]).location) ?_]
      · rw [List.getElem?_eq_getElem hp]
        have := hpw.sids (m - 1) hp
        cases hk : prev.symbols[m - 1]; rw [hk] at this; simp at this; simp [this]
      · rw [hcont, List.getElem?_append_left (by simpa [contents] using hp)]
        simp [contents, List.getElem?_eq_getElem hp]
  · intro i hi
    simp only [get]
    rw [(hw.getSid_eq (prev.maxId + 1 + i) (by omega) (by omega) none).1]
    have e : prev.maxId + 1 + i - 1 = prev.symbols.length + i := by have := hpw.maxId; omega
    rw [e, hget (prev.symbols.length + i) (by omega) (symbols[i], none) ?_]
    · have := hpw.maxId
      simp; omega
    · rw [hcont, List.getElem?_append_right (by simp [contents])]
      simp [contents, List.getElem?_eq_getElem hi]

/-- A local table with a shared import satisfies the hypotheses of `C23_append_table_partial`. -/
example : ∃ s t, sharedSymbolTable [0x73] 1 [some [0x61], none] = .ok s ∧
    localSymbolTable (some [s]) [some [0x62]] = .ok t ∧ LocalTable t ∧ NoForeignIon t ∧ t.maxId = 12 := by
  obtain ⟨s, hs⟩ : ∃ s, sharedSymbolTable [0x73] 1 [some [0x61], none] = .ok s := ⟨_, rfl⟩
  obtain ⟨t, ht⟩ : ∃ t, localSymbolTable (some [s]) [some [0x62]] = .ok t := ⟨_, rfl⟩
  refine ⟨s, t, hs, ht, ⟨.new ht, (new_wf ht).2.1⟩, ?_, ?_⟩
  · cases hs; cases ht; unfold NoForeignIon; decide +kernel
  · cases hs; cases ht; decide +kernel

/-- **C23, negative** Without that proviso the claim is false of the code: after importing a shared table named
`$ion`, an append drops the imported symbols and shifts the local ones (`symbols.py:191-193`). -/
theorem C23_append_shifts_after_ion_import :
    ∃ prev t tok, LocalTable prev ∧ SymbolTable.new .local [] (imports := some [prev]) = .ok t ∧
      prev.get (.sid 11) none = some tok ∧ tok.text = some [0x61] ∧
      t.get (.sid 11) none = none ∧ (t.get (.sid 10) none).bind (·.text) = some [0x61] := by
  obtain ⟨s, hs⟩ : ∃ s, placeholderSymbolTable TEXT_ION 1 1 = .ok s := ⟨_, rfl⟩
  obtain ⟨prev, hp⟩ : ∃ t, localSymbolTable (some [s]) [some [0x61]] = .ok t := ⟨_, rfl⟩
  obtain ⟨t, ht⟩ : ∃ t, SymbolTable.new .local [] (imports := some [prev]) = .ok t := ⟨_, rfl⟩
  refine ⟨prev, t, ⟨some [0x61], some 11, none⟩, ⟨.new hp, (new_wf hp).2.1⟩, ht, ?_, rfl, ?_, ?_⟩ <;>
    (cases hs; cases hp; cases ht; decide +kernel)

end Ion.SymbolTable
