import Verif.TextLong
set_option linter.unusedSimpArgs false
/-!
# Operators, as the text reader reads them

Symbols like `+` and `<=` in s-expressions.
-/
namespace Ion.TextReader
open Ion
variable [Fate]

section
variable {F : FloatText} {P : Loc} {b : Bool} {r g : List Nat} {es : List IonEvent} {cm : Bool} {c : Nat}
  {f : Option SymbolToken} {as : List SymbolToken} {v t : List Nat} {ty : Option IonType}

omit [Fate] in
theorem isOp_facts (h : isOp c = true) : isIdStart c = false ∧ isDigit c = false ∧ c ≠ 105 ∧ isWs c = false ∧ c ≠ 44 ∧ c ≠ EOF ∧ (∀ t, isEnd t c = false) ∧ c ≠ 48 ∧ c ≠ 123 ∧ c ≠ 40 ∧
    c ≠ 91 ∧ c ≠ 39 ∧ c ≠ 34 ∧ c ≠ 36 ∧ c ≠ 58 := by
  have hlt : c < 128 := by
    simp only [isOp, Bool.or_eq_true, decide_eq_true_eq] at h
    omega
  have h1 : ∀ c < 128, isOp c = true → isIdStart c = false ∧ isDigit c = false ∧ c ≠ 105 ∧ isWs c = false ∧ c ≠ 44 ∧ c ≠ EOF := by decide +kernel
  have h2 : ∀ c < 128, isOp c = true → c ≠ 125 ∧ c ≠ 93 ∧ c ≠ 41 ∧ c ≠ 48 ∧ c ≠ 123 ∧ c ≠ 40 := by decide +kernel
  have h3 : ∀ c < 128, isOp c = true → c ≠ 91 ∧ c ≠ 39 ∧ c ≠ 34 ∧ c ≠ 36 ∧ c ≠ 58 := by decide +kernel
  obtain ⟨k1, k2, k3, k4, k5, k6⟩ := h1 c hlt h
  obtain ⟨m1, m2, m3, m4, m5, m6⟩ := h2 c hlt h
  refine ⟨k1, k2, k3, k4, k5, k6, fun t => ?_, m4, m5, m6, h3 c hlt h⟩
  rcases t with _ | t
  · rfl
  · cases t <;> simp [isEnd, m1, m2, m3]

/-- The characters of an operator after its first. -/
theorem t_operator : ∀ {t v : List Nat} {b : Bool}, (∀ c ∈ t, isOp c = true) → isOp (r.headD EOF) = false → r ≠ [] → After F P r es →
    T F P false (octx f as ty v) .operator false b (t ++ r) (scalarEv f as P.outer.length .symbol (some (.sym ⟨some (v ++ t), none, none⟩)) :: es) := by
  intro t
  induction t with
  | nil =>
    intro v b _ hr hne h
    refine t_end (x' := octx f as ty v) rfl rfl ?_ rfl rfl ⟨by simp [scalarEv], rfl⟩ (fun h0 => absurd h0 hne) h
    simp only [List.nil_append, handle, hr, Bool.false_eq_true, if_false, Ctx.symbolEvent, List.append_nil]
    rfl
  | cons c t ih =>
    intro v b hc hr hne h
    refine t_imm (x' := octx f as ty (v ++ [c])) (h' := .operator) (b' := false) rfl rfl ?_ (by simp) ?_
    · simp only [handle, hc c (by simp), if_true]
      rfl
    · have := ih (v := v ++ [c]) (b := false) (fun d hd => hc d (by simp [hd])) hr hne h
      simpa using this

/-- After `+` or `-`. -/
theorem t_notInf {neg : Bool} (hsx : P.ty = some .sexp) (ht : ∀ c ∈ t, isOp c = true) (hr : isOp (r.headD EOF) = false) (hi : t = [] → r.headD EOF ≠ 105) (hne : r ≠ [])
    (h : After F P r es) :
    T F P false { dec f as with value := v, ionType := ty } (.inf neg 0) false b (t ++ r) (scalarEv f as P.outer.length .symbol (some (.sym ⟨some (v ++ t), none, none⟩)) :: es) := by
  have hst : ({ dec f as with value := v, ionType := ty } : Ctx).setType (some .float) = nctx f as .float v := by
    simp only [Ctx.setType, nctx]
    by_cases h : ty = some .float
    · simp [h]
    · simp [h, dec]
  have hs : P.env.inSexp = true := by simp [Env.inSexp, Loc.env, hsx]
  have hu : (nctx f as .float v).setUnicode false = .ok (octx f as (some .float) v) := rfl
  have hu' : (octx f as (some .float) v).setUnicode false = .ok (octx f as (some .float) v) := rfl
  cases t with
  | nil =>
    refine t_end (x' := octx f as (some .float) v) rfl rfl ?_ rfl rfl ⟨by simp [scalarEv], rfl⟩ (fun h0 => absurd h0 hne) h
    simp only [List.nil_append, handle, onInf, hst, infSuffix, List.getElem?_cons_zero, hi rfl, if_false, notInf, hu, hs, Bool.not_true, Bool.false_eq_true, if_true, hr, Ctx.symbolEvent, List.append_nil]
    rfl
  | cons c t =>
    have hc := ht c (by simp)
    refine t_imm (x' := octx f as (some .float) (v ++ [c])) (h' := .operator) (b' := false) rfl rfl ?_ (by simp) ?_
    · simp only [handle, onInf, hst, infSuffix, List.getElem?_cons_zero, (isOp_facts hc).2.2.1, if_false, notInf, hu, hs, Bool.not_true, Bool.false_eq_true, if_true, hc, andGo, mkOperator, hu']
      rfl
    · have := t_operator (F := F) (P := P) (f := f) (as := as) (ty := some .float) (t := t) (v := v ++ [c]) (b := false) (fun d hd => ht d (by simp [hd])) hr hne h
      simpa using this

/-- An operator that begins with a slash. -/
theorem events_slashStart {cf : Bool} (hsx : P.ty = some .sexp) (ho : OpHead r) (h : T F P false (octx f as none [47]) .operator false false r es) :
    Events F ⟨P.outer, P.ty, false, false, cm, cf, childOf f as, .head (some 47)⟩ r es := by
  obtain ⟨d, m, rfl, h1, h2, h3⟩ := ho
  have hch : (childOf f as).getD {} = dec f as := by
    unfold childOf
    split
    · next hn => rw [hn.1, hn.2]; rfl
    · rfl
  have h5 : onHead ⟨P.outer, P.ty, false, false, cm, cf, childOf f as, .head (some 47)⟩ (some 47) =
      .go ⟨P.outer, P.ty, false, false, cm, false, some (dec f as), .token (.sexpSlash none none) false⟩ := by
    simp only [onHead, show (47 : Nat) ≠ 44 from by decide, show (47 : Nat) ≠ EOF from by decide, show isWs 47 = false from rfl, decide_false, Bool.and_false, Bool.or_false,
      Bool.false_eq_true, if_false, onStart, if_true, hch, hsx, show isEnd (some .sexp) 47 = false from rfl]
    rfl
  refine events_go ?_
  simp only [next, h5]
  refine run_go (events_token rfl rfl ?_)
  have h4 : ∀ v, handle F v (dec f as) (.sexpSlash none none) { code := d } = .ok { unread := some d, ctx := octx f as none [47], res := .imm .operator } := by
    intro v
    simp only [handle, onSexpSlash, checkUnread, h3, if_false, h1, h2, or_self]
    rfl
  simp only [onChar, Option.getD_some, h4, onRes, Option.map_some]
  exact run_unread (run_go (h _ _ (by simp)))

/-- An operator. -/
theorem at_operator (hsx : P.ty = some .sexp) (ht0 : t ≠ []) (ht : ∀ c ∈ t, isOp c = true) (hsl : t.headD 0 ≠ 47) (hr : isOp (r.headD EOF) = false)
    (hi : t = [43] ∨ t = [45] → r.headD EOF ≠ 105) (hd : t = [45] → isDigit (r.headD EOF) = false) (hne : r ≠ []) (he : r.headD EOF ≠ EOF) (h : After F P r es) :
    At F P false false (childOf f as) cm (t ++ r) (scalarEv f as P.outer.length .symbol (some (.sym ⟨some t, none, none⟩)) :: es) := by
  cases t with
  | nil => exact absurd rfl ht0
  | cons c t =>
    have hc := ht c (by simp)
    have ht' : ∀ d ∈ t, isOp d = true := fun d hd => ht d (by simp [hd])
    obtain ⟨k1, k2, k3, k4, k5, k6, k7, k8, k9, k10, k11, k12, k13, k14, k15⟩ := isOp_facts hc
    have hp : plainStart P c = true := by
      simp only [List.headD_cons] at hsl
      simp [plainStart, k4, k5, hsl, k6, k7]
    have hq : (decide (c = 34) || decide (c = 39)) = false := by simp [k12, k13]
    have hs : P.env.inSexp = true := by simp [Env.inSexp, Loc.env, hsx]
    by_cases h43 : c = 43
    · subst h43
      refine at_value (x := { dec f as with value := [43], ionType := none }) (h := .inf false 0) (q := false) hp rfl rfl ?_
      exact t_notInf (v := [43]) hsx ht' hr (fun h0 => hi (.inl (by rw [h0]))) hne h
    by_cases h45 : c = 45
    · subst h45
      refine at_value (x := nctx f as .int [45]) (h := .negStart) (q := false) hp rfl rfl ?_
      have key : T F P false (nctx f as .int [45]) (.inf true 0) false false (t ++ r) (scalarEv f as P.outer.length .symbol (some (.sym ⟨some (45 :: t), none, none⟩)) :: es) :=
        t_notInf (v := [45]) (ty := some .int) hsx ht' hr (fun h0 => hi (.inr (by rw [h0]))) hne h
      have hd' : ∀ d l, t ++ r = d :: l → isDigit d = false ∧ d ≠ EOF := by
        intro d l hl
        cases t with
        | nil =>
          cases r with
          | nil => exact absurd rfl hne
          | cons e r =>
            simp only [List.nil_append, List.cons.injEq] at hl
            rw [← hl.1]
            exact ⟨hd rfl, he⟩
        | cons e t =>
          simp only [List.cons_append, List.cons.injEq] at hl
          rw [← hl.1]
          have := isOp_facts (ht' e (by simp))
          exact ⟨this.2.1, this.2.2.2.2.2.1⟩
      have hne' : t ++ r ≠ [] := by simp [hne]
      show T F P false _ _ false true (t ++ r) _
      generalize t ++ r = l at key hd' hne' ⊢
      cases l with
      | nil => exact absurd rfl hne'
      | cons d l =>
        obtain ⟨h1, h2⟩ := hd' d l rfl
        refine t_unread (h := .negStart) (x' := nctx f as .int [45]) (h' := .inf true 0) (b' := false) rfl rfl ?_ (by simp) key
        have h48 : d ≠ 48 := by rintro rfl; cases h1
        simp only [handle, h48, if_false, h1, Bool.false_eq_true, checkUnread, h2]
    · refine at_value (x := dec f as) (h := .operatorStart c) (q := false) hp ?_ hq ?_
      · simp only [valueTable, h45, h43, k8, k9, k10, k11, k12, k13, k14, k2, if_false, Bool.false_eq_true, mkKeyword, k1, hs, hc, Bool.and_self, if_true]
      have key : T F P false (octx f as none [c]) .operator false false (t ++ r) (scalarEv f as P.outer.length .symbol (some (.sym ⟨some ([c] ++ t), none, none⟩)) :: es) :=
        t_operator (v := [c]) ht' hr hne h
      have hd' : ∀ d l, t ++ r = d :: l → d ≠ EOF := by
        intro d l hl
        cases t with
        | nil =>
          cases r with
          | nil => exact absurd rfl hne
          | cons e r =>
            simp only [List.nil_append, List.cons.injEq] at hl
            rw [← hl.1]
            exact he
        | cons e t =>
          simp only [List.cons_append, List.cons.injEq] at hl
          rw [← hl.1]
          exact (isOp_facts (ht' e (by simp))).2.2.2.2.2.1
      have hne' : t ++ r ≠ [] := by simp [hne]
      show T F P false _ _ false true (t ++ r) _
      generalize t ++ r = l at key hd' hne' ⊢
      cases l with
      | nil => exact absurd rfl hne'
      | cons d l =>
        refine t_unread (h := .operatorStart c) (x' := octx f as none [c]) (h' := .operator) (b' := false) rfl rfl ?_ (by simp) key
        simp only [handle, checkUnread, hd' d l rfl, if_false, andGo]
        rfl
end

end Ion.TextReader
