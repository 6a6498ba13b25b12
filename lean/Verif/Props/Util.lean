import Verif.Util
/-!
# C40: code point iteration; C44: values are materialised once
-/
set_option linter.unusedSimpArgs false
namespace Ion.Util
open Ion

namespace Spec
/-- A Unicode scalar value. -/
def Scalar (c : Nat) : Prop := c ≤ 0x10FFFF ∧ ¬ (0xD800 ≤ c ∧ c ≤ 0xDFFF)

/-- UTF-16 encoding form of a code point (The Unicode Standard, D91). -/
def utf16 (c : Nat) : List Nat :=
  if c < 0x10000 then [c] else [0xD800 + (c - 0x10000) / 1024, 0xDC00 + (c - 0x10000) % 1024]

/-- A sequence that does not start with an encoded code point: it starts with an unpaired surrogate. -/
def StartsUnpaired (l : List Nat) : Prop :=
  match l with
  | [] => False
  | [a] => 0xD800 ≤ a ∧ a ≤ 0xDFFF
  | a :: b :: _ => (0xDC00 ≤ a ∧ a ≤ 0xDFFF) ∨ (0xD800 ≤ a ∧ a ≤ 0xDBFF) ∧ ¬ (0xDC00 ≤ b ∧ b ≤ 0xDFFF)
end Spec
open Spec

private theorem next_utf16 (c : Nat) (hc : Scalar c) (rest : List Nat) :
    nextCodePoint (utf16 c ++ rest) = .cp c rest := by
  obtain ⟨h1, h2⟩ := hc
  unfold utf16
  split
  · simp only [List.cons_append, List.nil_append, nextCodePoint]
    rw [if_neg (by unfold isLowSurrogate; omega), if_neg (by unfold isHighSurrogate; omega)]
  · simp only [List.cons_append, List.nil_append, nextCodePoint]
    rw [if_neg (by unfold isLowSurrogate; omega), if_pos (by unfold isHighSurrogate; omega), if_neg (by omega)]
    rw [NextCP.cp.injEq, Nat.shiftLeft_eq]
    exact ⟨by omega, rfl⟩

private theorem iter_cp {val : List Nat} {c rest} (h : nextCodePoint val = .cp c rest) :
    unicodeIter val = (c :: (unicodeIter rest).1, (unicodeIter rest).2) := by
  rw [unicodeIter]
  split <;> simp_all

private theorem iter_bad {val : List Nat} (h : nextCodePoint val = .bad ∨ nextCodePoint val = .pending) :
    unicodeIter val = ([], some .valueError) := by
  rw [unicodeIter]
  split <;> simp_all

private theorem iter_nil : unicodeIter [] = ([], none) := by
  rw [unicodeIter]
  split <;> rename_i h <;> simp [nextCodePoint] at h
  rfl

private theorem next_unpaired (l : List Nat) (h : StartsUnpaired l) :
    nextCodePoint l = .bad ∨ nextCodePoint l = .pending := by
  unfold StartsUnpaired at h
  split at h
  · exact absurd h id
  · rename_i a
    simp only [nextCodePoint, isLowSurrogate, isHighSurrogate]
    by_cases h1 : 0xDC00 ≤ a ∧ a ≤ 0xDFFF
    · simp [h1]
    · simp only [if_neg h1, if_pos (show 0xD800 ≤ a ∧ a ≤ 0xDBFF by omega)]; simp
  · rename_i a b l'
    simp only [nextCodePoint, isLowSurrogate, isHighSurrogate]
    rcases h with h | ⟨h, h2⟩
    · simp [h]
    · rw [if_neg (show ¬ (0xDC00 ≤ a ∧ a ≤ 0xDFFF) by omega), if_pos h, if_pos (by omega)]; simp

/-- Every sequence is empty, starts with the encoding of a scalar value, or starts with an unpaired surrogate. -/
private theorem cases16 (l : List Nat) (hl : ∀ u ∈ l, u < 0x10000) :
    l = [] ∨ StartsUnpaired l ∨ ∃ c rest, Scalar c ∧ l = utf16 c ++ rest := by
  match l with
  | [] => exact Or.inl rfl
  | [a] =>
    have := hl a (by simp)
    by_cases h : 0xD800 ≤ a ∧ a ≤ 0xDFFF
    · exact Or.inr (Or.inl h)
    · refine Or.inr (Or.inr ⟨a, [], ⟨by omega, h⟩, ?_⟩)
      simp [utf16, this]
  | a :: b :: l' =>
    have ha := hl a (by simp)
    have hb := hl b (by simp)
    by_cases h : 0xD800 ≤ a ∧ a ≤ 0xDFFF
    · by_cases h2 : 0xDC00 ≤ a
      · exact Or.inr (Or.inl (Or.inl ⟨h2, h.2⟩))
      · by_cases h3 : 0xDC00 ≤ b ∧ b ≤ 0xDFFF
        · refine Or.inr (Or.inr ⟨0x10000 + (a - 0xD800) * 1024 + (b - 0xDC00), l', ⟨by omega, by omega⟩, ?_⟩)
          unfold utf16
          rw [if_neg (by omega)]
          have e1 : 0xD800 + (0x10000 + (a - 0xD800) * 1024 + (b - 0xDC00) - 0x10000) / 1024 = a := by omega
          have e2 : 0xDC00 + (0x10000 + (a - 0xD800) * 1024 + (b - 0xDC00) - 0x10000) % 1024 = b := by omega
          rw [e1, e2]; rfl
        · exact Or.inr (Or.inl (Or.inr ⟨⟨h.1, by omega⟩, h3⟩))
    · refine Or.inr (Or.inr ⟨a, b :: l', ⟨by omega, h⟩, ?_⟩)
      simp [utf16, ha]

/-- **C40**, well-formed input: iterating the UTF-16 form of any code points yields exactly these code points. -/
theorem C40_iterates_code_points (cps : List Nat) (h : ∀ c ∈ cps, Scalar c) :
    unicodeIter (cps.flatMap utf16) = (cps, none) := by
  induction cps with
  | nil => exact iter_nil
  | cons c cps ih =>
    rw [List.flatMap_cons, iter_cp (next_utf16 c (h c (by simp)) _), ih fun c' hc' => h c' (by simp [hc'])]

/-- **C40**, all inputs: every code unit sequence is the UTF-16 form of some code points, and then exactly these are
yielded, or it has an unpaired surrogate after the encoding of some code points, and then these are yielded and
`ValueError` is raised. -/
theorem C40_all_sequences (units : List Nat) (hu : ∀ u ∈ units, u < 0x10000) :
    ∃ cps : List Nat, (∀ c ∈ cps, Scalar c) ∧
      ((units = cps.flatMap utf16 ∧ unicodeIter units = (cps, none)) ∨
       (∃ bad, StartsUnpaired bad ∧ units = cps.flatMap utf16 ++ bad ∧ unicodeIter units = (cps, some .valueError))) := by
  induction hn : units.length using Nat.strongRecOn generalizing units with
  | _ n ih =>
    rcases cases16 units hu with rfl | h | ⟨c, rest, hc, rfl⟩
    · exact ⟨[], by simp, Or.inl ⟨rfl, iter_nil⟩⟩
    · exact ⟨[], by simp, Or.inr ⟨units, h, rfl, iter_bad (next_unpaired units h)⟩⟩
    · have hlt : rest.length < n := by
        rw [← hn]; unfold utf16; split <;> simp <;> omega
      obtain ⟨cps, h1, h2⟩ := ih rest.length hlt rest (fun u hu' => hu u (by simp [hu'])) rfl
      refine ⟨c :: cps, ?_, ?_⟩
      · intro c' hc'
        rcases List.mem_cons.mp hc' with rfl | hc'
        · exact hc
        · exact h1 c' hc'
      · rw [iter_cp (next_utf16 c hc rest)]
        rcases h2 with ⟨h2, h3⟩ | ⟨bad, h2, h3, h4⟩
        · refine Or.inl ⟨by rw [List.flatMap_cons, ← h2], by rw [h3]⟩
        · refine Or.inr ⟨bad, h2, by rw [List.flatMap_cons, h3, List.append_assoc], by rw [h4]⟩

/-- **C40**, Python 3 strings, whose elements are code points: a string without surrogates is iterated as it is. -/
theorem C40_python3_text (cps : List Nat) (h : ∀ c ∈ cps, ¬ (0xD800 ≤ c ∧ c ≤ 0xDFFF)) :
    unicodeIter cps = (cps, none) := by
  induction cps with
  | nil => exact iter_nil
  | cons c cps ih =>
    have hc := h c (by simp)
    have : nextCodePoint (c :: cps) = .cp c cps := by
      simp only [nextCodePoint]
      rw [if_neg (by unfold isLowSurrogate; omega), if_neg (by unfold isHighSurrogate; omega)]
    rw [iter_cp this, ih fun c' hc' => h c' (by simp [hc'])]

example : (∀ c ∈ [0x61, 0x1F600, 0xFFFF], Scalar c) ∧
    [0x61, 0x1F600, 0xFFFF].flatMap utf16 = [0x61, 0xD83D, 0xDE00, 0xFFFF] := by
  refine ⟨by simp [Scalar], by decide⟩
example : StartsUnpaired [0xD83D, 0x61] ∧ StartsUnpaired [0xD83D] ∧ StartsUnpaired [0xDE00, 0xD83D] := by
  simp [StartsUnpaired]

/-! ## Thunks -/

variable {α : Type}

/-- What the holders of an event can do: read the value of one of the events derived so far, or derive another. -/
inductive Op where
  | access (i : Nat)
  | derive (i : Nat)

/-- Values obtained by a history of accesses, and the final state. -/
def run (delegate : Nat → Except PyErr α) (s : ThunkState α) : List Op → List (Except PyErr α) × ThunkState α
  | [] => ([], s)
  | .access i :: ops =>
    let r := s.call delegate i
    let r' := run delegate r.2 ops
    (r.1 :: r'.1, r'.2)
  | .derive i :: ops => run delegate (s.derive i) ops

/-- A new lazily decoded event. -/
def newThunk : ThunkState α := { cells := [{ parent := none }] }

/-- Invariant: if the `k`-th invocation is the first success, with value `v`, then only `v` is cached; while nothing
succeeded nothing is cached; and at most `k + 1` invocations have happened, more than `k` of them exactly if the first
thunk holds `v`. -/
private structure Inv (delegate : Nat → Except PyErr α) (s : ThunkState α) : Prop where
  cached : ∀ (i : Nat) (c : ThunkCell α), s.cells[i]? = some c → ∀ v, c.value = some v →
    ∃ k, s.calls = k + 1 ∧ delegate k = .ok v
  failed : ∀ j, j + 1 < s.calls → ∃ e, delegate j = .error e
  root : ∃ c, s.cells[0]? = some c ∧ c.parent = none ∧
    ((c.value = none ∧ ∀ j, j < s.calls → ∃ e, delegate j = .error e) ∨ c.value.isSome)
  parents : ∀ (i : Nat) (c : ThunkCell α), s.cells[i]? = some c → (c.parent = none → i = 0) ∧ ∀ j, c.parent = some j → j < i

private theorem inv_new (delegate : Nat → Except PyErr α) : Inv delegate newThunk := by
  refine ⟨?_, ?_, ⟨_, rfl, rfl, Or.inl ⟨rfl, ?_⟩⟩, ?_⟩
  · intro i c h v hv
    cases i with
    | zero => simp [newThunk] at h; subst h; simp at hv
    | succ i => simp [newThunk] at h
  · intro j h; simp [newThunk] at h
  · intro j h; simp [newThunk] at h
  · intro i c h
    cases i with
    | zero => simp [newThunk] at h; subst h; simp
    | succ i => simp [newThunk] at h

private theorem inv_call (delegate : Nat → Except PyErr α) (i : Nat) : ∀ {s : ThunkState α}, Inv delegate s →
    Inv delegate (s.call delegate i).2 ∧
    (∀ v, (s.call delegate i).1 = .ok v → ∃ k, (s.call delegate i).2.calls = k + 1 ∧ delegate k = .ok v) ∧
    (s.call delegate i).2.cells.length = s.cells.length := by
  induction i using Nat.strongRecOn with
  | _ i ih =>
    intro s h
    rw [ThunkState.call]
    cases hc : s.cells[i]? with
    | none => exact ⟨h, by simp, rfl⟩
    | some c =>
      simp only
      cases hv : c.value with
      | some v =>
        simp only
        refine ⟨h, ?_, trivial⟩
        intro w hw
        simp at hw
        exact h.cached i c hc w (by rw [hv, hw])
      | none =>
        simp only
        have store : ∀ (s' : ThunkState α) (v : α), Inv delegate s' → (i = 0 → False) →
            (∃ k, s'.calls = k + 1 ∧ delegate k = .ok v) →
            Inv delegate { s' with cells := s'.cells.modify i fun c => { c with value := some v } } := by
          intro s' v h' hi hk
          refine ⟨?_, h'.failed, ?_, ?_⟩
          · intro j cj hj w hw
            simp only [List.getElem?_modify] at hj
            cases hcj : s'.cells[j]? with
            | none => simp [hcj] at hj
            | some cj' =>
              simp only [hcj] at hj
              by_cases e : i = j
              · subst e; simp at hj; subst hj; simp at hw; subst hw; exact hk
              · simp [e] at hj; subst hj; exact h'.cached j cj' hcj w hw
          · obtain ⟨c0, h0, h1, h2⟩ := h'.root
            refine ⟨c0, ?_, h1, h2⟩
            simp only [List.getElem?_modify, h0]
            simp [show i ≠ 0 from hi]
          · intro j cj hj
            simp only [List.getElem?_modify] at hj
            cases hcj : s'.cells[j]? with
            | none => simp [hcj] at hj
            | some cj' =>
              simp only [hcj] at hj
              by_cases e : i = j
              · subst e; simp at hj; subst hj; exact h'.parents i cj' hcj
              · simp [e] at hj; subst hj; exact h'.parents j cj' hcj
        cases hp : c.parent with
        | none =>
          simp only
          have hi : i = 0 := (h.parents i c hc).1 hp
          subst hi
          obtain ⟨c0, h0, h1, h2⟩ := h.root
          rw [hc] at h0
          cases h0
          have hfail : ∀ j, j < s.calls → ∃ e, delegate j = .error e := by
            rcases h2 with h2 | h2
            · exact h2.2
            · simp [hv] at h2
          have hnone : ∀ (j : Nat) (cj : ThunkCell α), s.cells[j]? = some cj → cj.value = none := by
            intro j cj hj
            cases hvj : cj.value with
            | none => rfl
            | some w =>
              obtain ⟨k, hk, hk2⟩ := h.cached j cj hj w hvj
              obtain ⟨e, he⟩ := hfail k (by omega)
              rw [he] at hk2
              cases hk2
          cases hd : delegate s.calls with
          | error e =>
            refine ⟨⟨?_, ?_, ⟨c, hc, hp, Or.inl ⟨hv, ?_⟩⟩, h.parents⟩, by simp, rfl⟩
            · intro j cj hj w hw
              rw [hnone j cj hj] at hw
              cases hw
            · intro j hj
              exact hfail j (by simp at hj; omega)
            · intro j hj
              simp at hj
              rcases Nat.lt_succ_iff_lt_or_eq.mp hj with hj | hj
              · exact hfail j hj
              · exact ⟨e, by rw [hj]; exact hd⟩
          | ok v =>
            refine ⟨⟨?_, ?_, ?_, ?_⟩, ?_, by simp⟩
            · intro j cj hj w hw
              simp only [List.getElem?_modify] at hj
              cases hcj : s.cells[j]? with
              | none => simp [hcj] at hj
              | some cj' =>
                simp only [hcj] at hj
                by_cases e : 0 = j
                · subst e; simp at hj; subst hj; simp at hw; subst hw; exact ⟨s.calls, rfl, hd⟩
                · simp [e] at hj; subst hj; rw [hnone j cj' hcj] at hw; cases hw
            · intro j hj
              exact hfail j (by simp at hj; omega)
            · refine ⟨{ c with value := some v }, ?_, hp, Or.inr rfl⟩
              simp only [List.getElem?_modify, hc]; rfl
            · intro j cj hj
              simp only [List.getElem?_modify] at hj
              cases hcj : s.cells[j]? with
              | none => simp [hcj] at hj
              | some cj' =>
                simp only [hcj] at hj
                by_cases e : 0 = j
                · subst e; simp at hj; subst hj; exact h.parents 0 cj' hcj
                · simp [e] at hj; subst hj; exact h.parents j cj' hcj
            · intro w hw
              simp at hw
              exact ⟨s.calls, rfl, by rw [hd, hw]⟩
        | some j =>
          have hj : j < i := (h.parents i c hc).2 j hp
          simp only [hj, dif_pos]
          obtain ⟨a1, a2, a3⟩ := ih j hj h
          cases hr : s.call delegate j with
          | mk r s' =>
            rw [hr] at a1 a2 a3
            cases r with
            | error e => exact ⟨a1, by simp, a3⟩
            | ok v =>
              obtain ⟨k, hk1, hk2⟩ := a2 v rfl
              refine ⟨store s' v a1 (by omega) ⟨k, hk1, hk2⟩, ?_, by simpa using a3⟩
              intro w hw
              simp at hw
              exact ⟨k, hk1, by rw [hk2, hw]⟩

private theorem inv_derive (delegate : Nat → Except PyErr α) {s : ThunkState α} (h : Inv delegate s) (i : Nat)
    (hi : i < s.cells.length) : Inv delegate (s.derive i) := by
  have hget : ∀ (j : Nat) (c : ThunkCell α), (s.derive i).cells[j]? = some c →
      s.cells[j]? = some c ∨ (j = s.cells.length ∧ c = { parent := some i }) := by
    intro j c hj
    simp only [ThunkState.derive] at hj
    by_cases hlt : j < s.cells.length
    · rw [List.getElem?_append_left hlt] at hj; exact Or.inl hj
    · rw [List.getElem?_append_right (by omega)] at hj
      cases hz : j - s.cells.length with
      | zero => rw [hz] at hj; simp at hj; exact Or.inr ⟨by omega, hj.symm⟩
      | succ n => rw [hz] at hj; simp at hj
  refine ⟨?_, h.failed, ?_, ?_⟩
  · intro j c hj v hv
    rcases hget j c hj with hj | ⟨_, rfl⟩
    · exact h.cached j c hj v hv
    · simp at hv
  · obtain ⟨c0, h0, h1, h2⟩ := h.root
    refine ⟨c0, ?_, h1, h2⟩
    simp only [ThunkState.derive]
    rw [List.getElem?_append_left (by have := List.getElem?_eq_some_iff.mp h0; exact this.1)]
    exact h0
  · intro j c hj
    rcases hget j c hj with hj | ⟨rfl, rfl⟩
    · exact h.parents j c hj
    · refine ⟨by simp, ?_⟩
      intro j' hj'
      simp at hj'
      omega

/-- Events can only be derived from, and accessed on, events that exist. -/
def Valid (n : Nat) : List Op → Prop
  | [] => True
  | .access i :: ops => i < n ∧ Valid n ops
  | .derive i :: ops => i < n ∧ Valid (n + 1) ops

private theorem run_inv (delegate : Nat → Except PyErr α) (ops : List Op) : ∀ {s : ThunkState α}, Inv delegate s →
    Valid s.cells.length ops → Inv delegate (run delegate s ops).2 ∧ s.calls ≤ (run delegate s ops).2.calls ∧
      ∀ v, .ok v ∈ (run delegate s ops).1 → ∃ k, (run delegate s ops).2.calls = k + 1 ∧ delegate k = .ok v := by
  -- once a call succeeded the counter does not move any more
  have mono : ∀ (i : Nat) (s : ThunkState α), Inv delegate s → s.calls ≤ (s.call delegate i).2.calls := by
    intro i
    induction i using Nat.strongRecOn with
    | _ i ih =>
      intro s h
      rw [ThunkState.call]
      cases hc : s.cells[i]? with
      | none => simp
      | some c =>
        simp only
        cases hv : c.value with
        | some v => simp
        | none =>
          simp only
          cases hp : c.parent with
          | none =>
            simp only
            cases hd : delegate s.calls <;> simp
          | some j =>
            have hj : j < i := (h.parents i c hc).2 j hp
            simp only [hj, dif_pos]
            have := ih j hj s h
            cases hr : s.call delegate j with
            | mk r s' =>
              rw [hr] at this
              cases r <;> simpa using this
  induction ops with
  | nil => intro s h _; exact ⟨h, Nat.le_refl _, by simp [run]⟩
  | cons op ops ih =>
    intro s h hv
    cases op with
    | derive i =>
      obtain ⟨hv1, hv2⟩ := hv
      have := ih (inv_derive delegate h i hv1) (by simpa [ThunkState.derive] using hv2)
      simpa [run, ThunkState.derive] using this
    | access i =>
      obtain ⟨hv1, hv2⟩ := hv
      obtain ⟨a1, a2, a3⟩ := inv_call delegate i h
      obtain ⟨b1, b2, b3⟩ := ih a1 (by rw [a3]; exact hv2)
      refine ⟨b1, Nat.le_trans (mono i s h) b2, ?_⟩
      intro v hv
      simp only [run, List.mem_cons] at hv ⊢
      rcases hv with hv | hv
      · obtain ⟨k, hk1, hk2⟩ := a2 v hv.symm
        refine ⟨k, ?_, hk2⟩
        by_cases e : (run delegate (s.call delegate i).2 ops).2.calls = k + 1
        · exact e
        · obtain ⟨er, her⟩ := b1.failed k (by omega)
          rw [her] at hk2
          cases hk2
      · exact b3 v hv

/-- **C44.**  Take any decoding function (it may raise, and each invocation may give another outcome) and any history of
reading the value and deriving further events.  All successful reads give one and the same value, namely the outcome of
the one successful invocation, which is the last one: every earlier invocation raised. -/
theorem C44_materialised_once (delegate : Nat → Except PyErr α) (ops : List Op) (hv : Valid 1 ops) (v : α)
    (h : .ok v ∈ (run delegate newThunk ops).1) :
    ∃ k, (run delegate newThunk ops).2.calls = k + 1 ∧ delegate k = .ok v ∧ ∀ j, j < k → ∃ e, delegate j = .error e := by
  obtain ⟨a1, _, a3⟩ := run_inv delegate ops (inv_new delegate) (by simpa [newThunk] using hv)
  obtain ⟨k, hk1, hk2⟩ := a3 v h
  exact ⟨k, hk1, hk2, fun j hj => a1.failed j (by omega)⟩

/-- **C44**, in particular: a decoding function that never raises is invoked at most once, and every read gives its first
outcome. -/
theorem C44_invoked_at_most_once (f : Nat → α) (ops : List Op) (hv : Valid 1 ops) :
    (run (fun n => .ok (f n)) newThunk ops).2.calls ≤ 1 ∧
    ∀ r ∈ (run (fun n => .ok (f n)) newThunk ops).1, r = .ok (f 0) := by
  obtain ⟨a1, _, a3⟩ := run_inv (fun n => .ok (f n)) ops (inv_new _) (by simpa [newThunk] using hv)
  have hcalls : (run (fun n => (.ok (f n) : Except PyErr α)) newThunk ops).2.calls ≤ 1 := by
    apply Classical.byContradiction
    intro hn
    obtain ⟨e, he⟩ := a1.failed 0 (by omega)
    cases he
  refine ⟨hcalls, ?_⟩
  intro r hr
  cases r with
  | ok v =>
    obtain ⟨k, hk1, hk2⟩ := a3 v hr
    have : k = 0 := by omega
    subst this
    rw [← hk2]
  | error e =>
    exfalso
    -- no call can fail
    have nofail : ∀ (i : Nat) (s : ThunkState α), Inv (fun n => .ok (f n)) s → i < s.cells.length →
        ∀ e, (s.call (fun n => .ok (f n)) i).1 ≠ .error e := by
      intro i
      induction i using Nat.strongRecOn with
      | _ i ih =>
        intro s h hi e
        rw [ThunkState.call]
        rw [List.getElem?_eq_getElem hi]
        simp only
        cases hv : s.cells[i].value with
        | some v => simp
        | none =>
          simp only
          cases hp : s.cells[i].parent with
          | none => simp
          | some j =>
            have hj : j < i := (h.parents i _ (List.getElem?_eq_getElem hi)).2 j hp
            simp only [hj, dif_pos]
            have := ih j hj s h (by omega)
            cases hr : s.call (fun n => .ok (f n)) j with
            | mk r s' =>
              rw [hr] at this
              cases r with
              | ok v => simp
              | error e' => exact absurd rfl (this e')
    have : ∀ (ops : List Op) (s : ThunkState α), Inv (fun n => .ok (f n)) s → Valid s.cells.length ops →
        .error e ∉ (run (fun n => .ok (f n)) s ops).1 := by
      intro ops
      induction ops with
      | nil => intro s _ _; simp [run]
      | cons op ops ih =>
        intro s h hv
        cases op with
        | derive i =>
          obtain ⟨hv1, hv2⟩ := hv
          simpa [run] using ih _ (inv_derive _ h i hv1) (by simpa [ThunkState.derive] using hv2)
        | access i =>
          obtain ⟨hv1, hv2⟩ := hv
          obtain ⟨b1, b2, b3⟩ := inv_call (fun n => .ok (f n)) i h
          simp only [run, List.mem_cons, not_or]
          exact ⟨fun e' => nofail i s h hv1 e e'.symm, ih _ b1 (by rw [b3]; exact hv2)⟩
    exact this ops newThunk (inv_new _) (by simpa [newThunk] using hv) hr

/-- A history with derived events and a failing first invocation. -/
example : Valid 1 [.access 0, .derive 0, .access 1, .derive 1, .access 2, .access 0] := by simp [Valid]
example :
    let d : Nat → Except PyErr Nat := fun n => if n = 0 then .error .ionException else .ok (40 + n)
    (run d newThunk [.access 0, .derive 0, .access 1, .derive 1, .access 2, .access 0]).1
      = [.error .ionException, .ok 41, .ok 41, .ok 41] := by
  simp [run, newThunk, ThunkState.call, ThunkState.derive]

end Ion.Util
