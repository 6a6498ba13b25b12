import Verif.TextPrefix
set_option linter.unusedSimpArgs false
/-!
# What the text reader rejects
-/
namespace Ion.TextReader
open Ion Ion.TextSpec
variable [Fate]

section
variable {F : FloatText} {P : Loc} {fld dl : Bool} {ch : Option Ctx} {r g : List Nat} {es : List IonEvent} {cm : Bool} {c : Nat}
  {f : Option SymbolToken} {as : List SymbolToken}

omit [Fate] in
theorem idStart_iff {c : Nat} : isIdStart c = true ∨ c = 36 ↔ IdentStart c := by
  simp only [isIdStart, isLetter, IdentStart, Bool.or_eq_true, Bool.and_eq_true, decide_eq_true_eq]
  omega

omit [Fate] in
theorem digit_iff {c : Nat} : isDigit c = true ↔ Digit c := by
  simp [isDigit, Digit]

omit [Fate] in
/-- No value starts with this character. -/
theorem valueTable_none {p : Place} (hp : Same P p) (hc : ¬ BeginsValue p c) (x : Ctx) : valueTable P.env c x = .error .ionException := by
  simp only [BeginsValue, not_or] at hc
  obtain ⟨h1, h2, h3, h4⟩ := hc
  have h5 : isDigit c = false := by rw [Bool.eq_false_iff]; exact fun h => h1 (digit_iff.1 h)
  have h6 : isIdStart c = false := by rw [Bool.eq_false_iff]; exact fun h => h2 (idStart_iff.1 (.inl h))
  have h7 : c ≠ 36 := fun h => h2 (idStart_iff.1 (.inr h))
  have h8 : c ≠ 48 := by rintro rfl; exact h1 (by simp [Digit])
  simp only [asc, List.map_cons, List.map_nil, List.mem_cons, List.not_mem_nil, or_false, not_or] at h3
  obtain ⟨k1, k2, k3, k4, k5, k6, k7⟩ := h3
  have h9 : (P.env.inSexp && isOp c) = false := by
    rw [Bool.and_eq_false_iff]
    by_cases hs : p = some .sexp
    · right
      rw [Bool.eq_false_iff]
      exact fun h => h4 ⟨hs, isOp_iff.1 h⟩
    · left
      simp only [Env.inSexp, Loc.env, hp.ty, decide_eq_false_iff_not]
      intro h
      rcases p with _ | t
      · simp at h
      · cases t <;> simp [Spec.CType.ty] at h hs
  have k1 : c ≠ 43 := k1
  have k2 : c ≠ 45 := k2
  have k3 : c ≠ 34 := k3
  have k4 : c ≠ 39 := k4
  have k5 : c ≠ 91 := k5
  have k6 : c ≠ 40 := k6
  have k7 : c ≠ 123 := k7
  simp [valueTable, mkKeyword, h5, h6, h7, h8, h9, k1, k2, k3, k4, k5, k6, k7]

omit [Fate] in
/-- No field starts with this character. -/
theorem fieldTable_none (hc : ¬ BeginsField c) (x : Ctx) (v : Env) : fieldTable v c x = .error .ionException := by
  simp only [BeginsField, not_or] at hc
  obtain ⟨h1, h2, h3⟩ := hc
  have h6 : isIdStart c = false := by rw [Bool.eq_false_iff]; exact fun h => h1 (idStart_iff.1 (.inl h))
  have h7 : c ≠ 36 := fun h => h1 (idStart_iff.1 (.inr h))
  simp [fieldTable, h2, h3, h6, h7]

omit [Fate] in
theorem comma_field : ¬ BeginsField 44 := by simp only [BeginsField, IdentStart]; omega

omit [Fate] in
theorem comma_value (p : Place) : ¬ BeginsValue p 44 := by
  simp only [BeginsValue, IdentStart, Digit, OpChar]
  rintro (h | h | h | ⟨_, h⟩)
  · omega
  · omega
  · exact absurd h (by decide)
  · exact absurd h (by decide)

/-- The reader raises at this character. -/
theorem at_err {err : PyErr} (h0 : Fate.o = some err) (h : ∀ cm' cf ch', Idle ch ch' → onHead ⟨P.outer, P.ty, fld, dl, cm', cf, ch', .head (some c)⟩ (some c) = .err err) :
    At F P fld dl ch cm (c :: r) [] := by
  intro cm' cf ch' hch _ _
  refine events_go ?_
  simp only [next, h cm' cf ch' hch]
  exact run_err h0

omit [Fate] in
theorem token_facts (h : IsTokenChar c) : isWs c = false ∧ c ≠ 47 ∧ c ≠ EOF := by
  have := token_start h
  simp only [followStart, Bool.and_eq_true, Bool.not_eq_true', decide_eq_true_eq] at this
  exact ⟨this.1.1, this.1.2, this.2⟩

/-- A character that starts neither a value nor a field, and does not close the container. -/
theorem at_badStart (h0 : Fate.o = some .ionException) {p : Place} (hp : Same P p) (hc : IsTokenChar c)
    (hend : isEnd P.ty c = true → decorated ch = true) (hpend : ch.bind (·.pending) = none)
    (ht : c ≠ 44 → ∀ x, (if fld then fieldTable P.env c x else valueTable P.env c x) = .error .ionException) :
    At F P fld false ch cm (c :: r) [] := by
  refine at_err h0 fun cm' cf ch' hch => ?_
  obtain ⟨h1, h2, h3⟩ := token_facts hc
  have hp' : ∀ b d cf, (St.pending ⟨P.outer, P.ty, fld, b, d, cf, ch', .head (some c)⟩) = none := fun _ _ _ => idle_pending hch hpend
  have hd := idle_decorated hch
  have hcl : (isEnd P.ty c || (P.env.isDelimited && decide (c = 44)) || decide (c = EOF)) = true →
      onClose ⟨P.outer, P.ty, fld, false, cm', cf, ch', .head (some c)⟩ c = .err .ionException := by
    intro h
    by_cases he : isEnd P.ty c = true
    · simp [onClose, he, hd, hend he]
    · simp only [Bool.not_eq_true] at he
      simp only [he, h3, Bool.false_or, Bool.or_false, Bool.and_eq_true, decide_eq_true_eq, decide_false] at h
      obtain ⟨_, rfl⟩ := h
      simp [onClose, he]
  by_cases h : (isEnd P.ty c || (P.env.isDelimited && decide (c = 44)) || decide (c = EOF)) = true
  · have := hcl h
    simp only [onHead, hp']
    have h' : (isEnd P.ty c || ((St.env ⟨P.outer, P.ty, fld, false, cm', cf, ch', .head (some c)⟩).isDelimited && decide (c = 44)) || decide (c = EOF)) = true := h
    rw [if_pos h']
    cases ch' <;> exact this
  · have h' : ¬ (isEnd P.ty c || ((St.env ⟨P.outer, P.ty, fld, false, cm', cf, ch', .head (some c)⟩).isDelimited && decide (c = 44)) || decide (c = EOF)) = true := h
    simp only [onHead]
    rw [if_neg h', if_neg (by simp [h1])]
    simp only [onStart, h2, if_false, Bool.false_eq_true, hp']
    have ht' : ∀ x, (if fld then fieldTable P.env c x else valueTable P.env c x) = .error .ionException := by
      intro x
      by_cases h44 : c = 44
      · subst h44
        cases fld with
        | true => exact fieldTable_none comma_field x P.env
        | false => exact valueTable_none hp (comma_value p) x
      · exact ht h44 x
    have he : ∀ b cf, St.env ⟨P.outer, P.ty, fld, b, cm', cf, ch', .head (some c)⟩ = P.env := fun _ _ => rfl
    cases ch' with
    | none => simp only [he, ht']
    | some y => simp only [he, ht']

/-- A character that may not follow where a value or a field may start. -/
theorem at_rejects (h0 : Fate.o = some .ionException) {p : Place} (hp : Same P p) (hc : IsTokenChar c) (hm : ¬ MayFollow p c) :
    At F P (decide (P.ty = some .struct)) false none cm (c :: r) [] := by
  have hty := hp.ty
  refine at_badStart h0 hp hc ?_ rfl ?_
  · intro he
    rw [hty] at he
    exfalso
    rcases p with _ | t
    · simp [isEnd] at he
    · cases t <;> simp_all [isEnd, Spec.CType.ty, MayFollow, closing]
  · intro _ x
    rcases p with _ | t
    · simp only [hty, Option.map_none, reduceCtorEq, decide_false, Bool.false_eq_true, if_false]
      exact valueTable_none hp hm x
    · cases t with
      | list =>
        simp only [hty, Option.map_some, Spec.CType.ty, Option.some.injEq, reduceCtorEq, decide_false, Bool.false_eq_true, if_false]
        exact valueTable_none hp (fun h => hm (.inl h)) x
      | sexp =>
        simp only [hty, Option.map_some, Spec.CType.ty, Option.some.injEq, reduceCtorEq, decide_false, Bool.false_eq_true, if_false]
        exact valueTable_none hp (fun h => hm (.inl h)) x
      | struct =>
        simp only [hty, Option.map_some, Spec.CType.ty, decide_true, if_true]
        exact fieldTable_none (fun h => hm (.inl h)) x _

/-- A character that starts no value, after a field name or annotations. -/
theorem at_rejectsNamed (h0 : Fate.o = some .ionException) {p : Place} (hp : Same P p) (hc : IsTokenChar c) (hm : ¬ BeginsValue p c) (hn : f ≠ none ∨ as ≠ []) :
    At F P false false (childOf f as) cm (c :: r) [] := by
  refine at_badStart h0 hp hc ?_ (pending_childOf f as) fun _ x => by simpa using valueTable_none hp hm x
  intro _
  have h1 : childOf f as = some (dec f as) := if_neg (by rcases hn with h | h <;> simp [h])
  rw [h1]
  simp only [decorated, dec]
  cases f <;> cases as <;> simp_all

/-- A token after a value in a list or struct. -/
theorem after_rejects (h0 : Fate.o = some .ionException) {ty : Spec.CType} (hp : Same P (some ty)) (hty : ty ≠ .sexp) (hc : IsTokenChar c) (h44 : c ≠ 44) (hcl : c ≠ closing ty) :
    Rest F P (c :: r) [] := by
  obtain ⟨h1, h2, h3⟩ := token_facts hc
  refine .of_at (by simp) (at_err h0 fun cm' cf ch' hch => ?_) h2
  have hpt := hp.ty
  have hd : P.env.isDelimited = true := by
    simp only [Loc.env, Env.isDelimited, hpt]
    cases ty <;> first | rfl | exact absurd rfl hty
  have he : isEnd P.ty c = false := by
    rw [hpt]
    cases ty <;> simp_all [isEnd, Spec.CType.ty, closing]
  simp [onHead, he, h44, h3, h1, onStart, h2, hd]
end
end Ion.TextReader
