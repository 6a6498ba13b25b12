import Verif.TextBad
set_option linter.unusedSimpArgs false
/-!
# Numbers and timestamps that the text reader rejects
-/
namespace Ion.TextReader
open Ion Ion.TextSpec
variable [Fate]

section
variable {F : FloatText} {P : Loc} {fld : Bool} {x x' : Ctx} {h h' : H} {r : List Nat} {es : List IonEvent} {cm : Bool} {c : Nat}
  {f : Option SymbolToken} {as : List SymbolToken}

omit [Fate] in
theorem stop_cases (h : TextSpec.IsStop c) : isTerm c = true ∨ c = 11 ∨ c = 12 := by
  simp only [TextSpec.IsStop, asc, List.map_cons, List.map_nil, List.mem_cons, List.not_mem_nil, or_false, TextSpec.IsSpace] at h
  have : c = 123 ∨ c = 125 ∨ c = 91 ∨ c = 93 ∨ c = 40 ∨ c = 41 ∨ c = 44 ∨ c = 34 ∨ c = 39 ∨ c = 32 ∨ c = 9 ∨ c = 10 ∨ c = 13 ∨ c = 47 ∨ c = 11 ∨ c = 12 := by
    rcases h with (h | h | h | h | h | h | h | h | h) | h | h <;> first | (subst h; decide) | omega
  simp only [isTerm, Bool.or_eq_true, decide_eq_true_eq]
  omega

omit [Fate] in
theorem term_stop (h : isTerm c = true) : TextSpec.IsStop c := by
  simp only [isTerm, Bool.or_eq_true, decide_eq_true_eq] at h
  simp only [TextSpec.IsStop, asc, List.map_cons, List.map_nil, List.mem_cons, List.not_mem_nil, or_false, TextSpec.IsSpace]
  rcases h with ((((((((((((h | h) | h) | h) | h) | h) | h) | h) | h) | h) | h) | h) | h) | h <;> subst h <;> decide

/-- A character of a run. -/
def Plain (c : Nat) : Prop := c ≤ 0x10FFFF ∧ ¬ TextSpec.IsStop c

omit [Fate] in
theorem plain_not (h : Plain c) : endsValue c = false ∧ isTerm c = false := by
  have h1 : isTerm c = false := by
    rw [Bool.eq_false_iff]
    exact fun hh => h.2 (term_stop hh)
  have h2 : c ≠ EOF := by
    have := h.1
    simp only [EOF]
    omega
  exact ⟨by simp [endsValue, h1, h2], h1⟩

/-- The end of the run is rejected. -/
theorem t_stop (h0 : Fate.o = some .ionException) (hq : x.quoted = false) (hcs : isCS h = false) (hr : ∀ c r', r = c :: r' → TextSpec.IsStop c)
    (hh : ∀ c, endsValue c = true ∨ c = 11 ∨ c = 12 → handle F P.env x h { code := c } = .error .ionException) : T F P false x h false true r [] := by
  cases r with
  | nil => exact t_errNil h0 hq hcs (hh _ (.inl rfl))
  | cons c r =>
    refine t_err h0 hq hcs (hh c ?_)
    rcases stop_cases (hr c r rfl) with h | h
    · exact .inl (by simp [endsValue, h])
    · exact .inr h

/-- The digits of a component, in any notation. -/
theorem t_group {k : NumKind} {ty : IonType} (hty : flTy (some ty) = true) (h0 : Fate.o = some .ionException) (hstop : ∀ c r', r = c :: r' → TextSpec.IsStop c)
    (hk : ∀ d, k.charset d = true → (∃ v, TextSpec.HexDigit d v) ∧ k.badBefore d = false) :
    ∀ (n : Nat) (tok : List Nat) (p : Nat) (v : List Nat), tok.length ≤ n → k.charset p = true → (∀ c ∈ tok, Plain c) →
    (∀ t ds tok', tok = t ++ tok' → TextSpec.Spelled (p :: t) (p :: ds) → (∀ d ∈ ds, k.charset d = true) → k.charset (ds.getLastD p) = true →
      (∀ c tl, tok' = c :: tl → k.charset c = false ∧ c ≠ 95) → T F P false (nctx f as ty (v ++ ds)) (.numeric k (ds.getLastD p)) false true (tok' ++ r) []) →
    T F P false (nctx f as ty v) (.numeric k p) false true (tok ++ r) [] := by
  intro n
  induction n with
  | zero =>
    intro tok p v hl hp hpl hr
    obtain rfl : tok = [] := List.length_eq_zero_iff.1 (by omega)
    simpa using hr [] [] [] rfl (.cons _ _ _ .nil) (by simp) (by simpa using hp) (by simp)
  | succ n ih =>
    intro tok p v hl hp hpl hr
    cases tok with
    | nil => simpa using hr [] [] [] rfl (.cons _ _ _ .nil) (by simp) (by simpa using hp) (by simp)
    | cons c tok =>
      obtain ⟨he, _⟩ := plain_not (hpl c (by simp))
      have hp95 : p ≠ 95 := by
        rintro rfl
        obtain ⟨⟨v, hv⟩, _⟩ := hk _ hp
        cases hv <;> omega
      by_cases h95 : c = 95
      · subst h95
        refine t_imm (b' := true) (x' := nctx f as ty v) (h' := .numeric k 95) rfl rfl ?_ (fun _ => hty) ?_
        · simp only [handle, onNumeric, he, (hk p hp).2, hp95, Bool.false_eq_true, if_false, if_true, or_self]
        cases tok with
        | nil =>
          refine t_stop h0 rfl rfl hstop fun c hc => ?_
          rcases hc with hc | hc
          · simp only [handle, onNumeric, hc, if_true, true_or]
          · have : k.charset c = false := by
              rw [Bool.eq_false_iff]
              intro hh
              obtain ⟨⟨v, hv⟩, _⟩ := hk _ hh
              cases hv <;> omega
            have h2 : endsValue c = false := by rcases hc with rfl | rfl <;> rfl
            have h3 : c ≠ 95 := by omega
            have h4 : isSign c = false := by rcases hc with rfl | rfl <;> rfl
            simp only [handle, onNumeric, h2, h3, this, Bool.false_eq_true, if_false]
            cases k <;> simp [NumKind.transition, h4]
        | cons e tok =>
          obtain ⟨he', _⟩ := plain_not (hpl e (by simp))
          cases hce : k.charset e with
          | true =>
            have he95 : e ≠ 95 := by
              rintro rfl
              obtain ⟨⟨v, hv⟩, _⟩ := hk _ hce
              cases hv <;> omega
            refine t_imm (b' := true) (x' := nctx f as ty (v ++ [e])) (h' := .numeric k e) rfl rfl ?_ (fun _ => hty) ?_
            · simp only [handle, onNumeric, he', he95, hce, Bool.false_eq_true, if_false, if_true]
              rfl
            refine ih tok e (v ++ [e]) (by simp only [List.length_cons] at hl; omega) hce (fun c hc => hpl c (by simp [hc])) ?_
            intro t ds tok' h1 h2 h3 h4 h5
            obtain ⟨⟨a, ha⟩, _⟩ := hk _ hp
            obtain ⟨⟨b, hb⟩, _⟩ := hk _ hce
            have := hr (95 :: e :: t) (e :: ds) tok' (by rw [h1]; rfl) (.under _ _ _ _ _ _ ha hb h2) (by simpa using ⟨hce, h3⟩) (by rw [List.getLastD_cons]; exact h4) h5
            rw [List.getLastD_cons] at this
            rw [List.append_assoc]
            exact this
          | false =>
            refine t_err h0 rfl rfl ?_
            by_cases he95 : e = 95
            · subst he95
              simp only [handle, onNumeric, he', if_true, true_or, Bool.false_eq_true, if_false]
            · simp only [handle, onNumeric, he', he95, hce, if_true, true_or, Bool.false_eq_true, if_false]
              cases k <;> simp [NumKind.transition, isDecExp, isFloatExp]
      · cases hce : k.charset c with
        | true =>
          refine t_imm (b' := true) (x' := nctx f as ty (v ++ [c])) (h' := .numeric k c) rfl rfl ?_ (fun _ => hty) ?_
          · simp only [handle, onNumeric, he, h95, hce, Bool.false_eq_true, if_false, if_true]
            rfl
          refine ih tok c (v ++ [c]) (by simp only [List.length_cons] at hl; omega) hce (fun c hc => hpl c (by simp [hc])) ?_
          intro t ds tok' h1 h2 h3 h4 h5
          have := hr (c :: t) (c :: ds) tok' (by rw [h1]; rfl) (.cons _ _ _ h2) (by simpa using ⟨hce, h3⟩) (by rw [List.getLastD_cons]; exact h4) h5
          rw [List.getLastD_cons] at this
          rw [List.append_assoc]
          exact this
        | false =>
          have := hr [] [] (c :: tok) rfl (.cons _ _ _ .nil) (by simp) (by simpa using hp) (by rintro _ _ ⟨⟩; exact ⟨hce, h95⟩)
          simpa using this

omit [Fate] in
theorem digits_hex {k : NumKind} (hk : k = .decimal ∨ k = .float ∨ k = .whole ∨ k = .fractional) (d : Nat) (hd : k.charset d = true) :
    (∃ v, TextSpec.HexDigit d v) ∧ k.badBefore d = false := by
  have h1 : isDigit d = true := by rcases hk with rfl | rfl | rfl | rfl <;> exact hd
  obtain ⟨_, _, h2, h3, _, _, _, h4, h5⟩ := digit_not h1
  refine ⟨?_, ?_⟩
  · simp only [isDigit, Bool.and_eq_true, decide_eq_true_eq] at h1
    exact ⟨_, .digit d h1.1 h1.2⟩
  · rcases hk with rfl | rfl | rfl | rfl <;> simp [NumKind.badBefore, h2, h3, h4, h5]

omit [Fate] in
theorem spelled_append {t u t' u' : List Nat} (h : TextSpec.Spelled t u) (h' : TextSpec.Spelled t' u') : TextSpec.Spelled (t ++ t') (u ++ u') := by
  induction h with
  | nil => exact h'
  | cons c t u _ ih => exact .cons c _ _ ih
  | under d e v w t u hd he _ ih => exact .under d e v w _ _ hd he ih

omit [Fate] in
theorem spelled_self (t : List Nat) : TextSpec.Spelled t t := by
  induction t with
  | nil => exact .nil
  | cons c t ih => exact .cons c _ _ ih

omit [Fate] in
theorem spelled_under {ds t u : List Nat} {e : Nat} (hne : ds ≠ []) (hd : TextSpec.Digits ds) (he : TextSpec.Digit e) (h : TextSpec.Spelled (e :: t) u) :
    TextSpec.Spelled (ds ++ 95 :: e :: t) (ds ++ u) := by
  induction ds with
  | nil => exact absurd rfl hne
  | cons d ds ih =>
    have h1 := hd d (by simp)
    cases ds with
    | nil => exact .under _ _ _ _ _ _ (.digit d h1.1 h1.2) (.digit e he.1 he.2) h
    | cons d' ds => exact .cons d _ _ (ih (by simp) fun c hc => hd c (by simp [hc]))

/-- An exponent after its sign. -/
theorem t_badExpDigits (h0 : Fate.o = some .ionException) (hstop : ∀ c r', r = c :: r' → TextSpec.IsStop c) {k : NumKind} {ty : IonType}
    (hk : (k = .decimal ∧ ty = .decimal) ∨ (k = .float ∧ ty = .float)) {p : Nat} (hp : k.badBefore p = true) {tok v : List Nat} (hpl : ∀ c ∈ tok, Plain c)
    (hs : ∀ c t, tok = c :: t → isSign c = true → isSign p = true) (hbad : ¬ ∃ ds, ds ≠ [] ∧ TextSpec.Digits ds ∧ TextSpec.Spelled tok ds) :
    T F P false (nctx f as ty v) (.numeric k p) false true (tok ++ r) [] := by
  have hty : flTy (some ty) = true := by rcases hk with ⟨_, rfl⟩ | ⟨_, rfl⟩ <;> rfl
  have hpe : isSign p = true → isDecExp p = false ∧ isFloatExp p = false := by
    intro h
    simp only [isSign, Bool.or_eq_true, decide_eq_true_eq] at h
    rcases h with rfl | rfl <;> exact ⟨rfl, rfl⟩
  have hcs : ∀ c, k.charset c = isDigit c := by rcases hk with ⟨rfl, _⟩ | ⟨rfl, _⟩ <;> intro c <;> rfl
  cases tok with
  | nil =>
    refine t_stop h0 rfl rfl hstop fun c hc => ?_
    rcases hc with hc | hc
    · have : k.badEnd p = true := by rcases hk with ⟨rfl, _⟩ | ⟨rfl, _⟩ <;> exact hp
      simp only [handle, onNumeric, hc, if_true, this, or_true]
    · rcases hk with ⟨rfl, _⟩ | ⟨rfl, _⟩ <;> rcases hc with rfl | rfl <;> rfl
  | cons c tok =>
    obtain ⟨he, _⟩ := plain_not (hpl c (by simp))
    by_cases h95 : c = 95
    · refine t_err h0 rfl rfl ?_
      simp only [handle, onNumeric, he, h95, if_true, hp, or_true, Bool.false_eq_true, if_false]
      subst h95
      rfl
    · cases hce : k.charset c with
      | true =>
        refine t_imm (b' := true) (x' := nctx f as ty (v ++ [c])) (h' := .numeric k c) rfl rfl ?_ (fun _ => hty) ?_
        · simp only [handle, onNumeric, he, h95, hce, Bool.false_eq_true, if_false, if_true]
          rfl
        refine t_group hty h0 hstop (digits_hex (by rcases hk with ⟨rfl, _⟩ | ⟨rfl, _⟩ <;> simp)) _ tok c _ (Nat.le_refl _) hce (fun c hc => hpl c (by simp [hc])) ?_
        intro t ds tok' h1 h2 h3 h4 h5
        cases tok' with
        | nil =>
          refine absurd ⟨c :: ds, by simp, ?_, ?_⟩ hbad
          · intro d hd
            rcases List.mem_cons.1 hd with rfl | hd
            · exact isDigit_iff.1 ((hcs _).symm.trans hce)
            · exact isDigit_iff.1 ((hcs _).symm.trans (h3 d hd))
          · rw [h1, List.append_nil]
            exact h2
        | cons c' tok' =>
          obtain ⟨h6, h7⟩ := h5 _ _ rfl
          obtain ⟨he', _⟩ := plain_not (hpl c' (by simp [h1]))
          obtain ⟨_, _, _, _, _, _, _, h8, h9⟩ := digit_not ((hcs _).symm.trans h4)
          refine t_err h0 rfl rfl ?_
          simp only [handle, onNumeric, he', h6, h7, Bool.false_eq_true, if_false]
          rcases hk with ⟨rfl, _⟩ | ⟨rfl, _⟩ <;> simp only [NumKind.transition, h8, h9, Bool.and_false, Bool.false_eq_true, if_false]
      | false =>
        refine t_err h0 rfl rfl ?_
        simp only [handle, onNumeric, he, h95, hce, Bool.false_eq_true, if_false]
        have h6 : (isSign c && isDecExp p) = false ∧ (isSign c && isFloatExp p) = false := by
          cases hsc : isSign c with
          | false => exact ⟨rfl, rfl⟩
          | true =>
            obtain ⟨h7, h8⟩ := hpe (hs c tok rfl hsc)
            simp [h7, h8]
        rcases hk with ⟨rfl, _⟩ | ⟨rfl, _⟩ <;> simp only [NumKind.transition, h6.1, h6.2, Bool.false_eq_true, if_false]

/-- An exponent after its letter. -/
theorem t_badExp (h0 : Fate.o = some .ionException) (hstop : ∀ c r', r = c :: r' → TextSpec.IsStop c) {k : NumKind} {ty : IonType}
    (hk : (k = .decimal ∧ ty = .decimal) ∨ (k = .float ∧ ty = .float)) {p : Nat} (hp : (k = .decimal ∧ isDecExp p = true) ∨ (k = .float ∧ isFloatExp p = true))
    {tok v : List Nat} (hpl : ∀ c ∈ tok, Plain c)
    (hbad : ¬ ∃ s u ds, s ∈ [[], [43], [45]] ∧ ds ≠ [] ∧ TextSpec.Digits ds ∧ TextSpec.Spelled u ds ∧ tok = s ++ u) :
    T F P false (nctx f as ty v) (.numeric k p) false true (tok ++ r) [] := by
  have hty : flTy (some ty) = true := by rcases hk with ⟨_, rfl⟩ | ⟨_, rfl⟩ <;> rfl
  have hpb : k.badBefore p = true := by rcases hp with ⟨rfl, h⟩ | ⟨rfl, h⟩ <;> simp [NumKind.badBefore, h]
  have hno : ¬ ∃ ds, ds ≠ [] ∧ TextSpec.Digits ds ∧ TextSpec.Spelled tok ds := fun ⟨ds, h1, h2, h3⟩ => hbad ⟨[], tok, ds, by simp, h1, h2, h3, rfl⟩
  cases tok with
  | nil => exact t_badExpDigits h0 hstop hk hpb hpl (by simp) hno
  | cons c tok =>
    cases hsc : isSign c with
    | false => exact t_badExpDigits h0 hstop hk hpb hpl (by rintro _ _ ⟨⟩ h; rw [hsc] at h; exact absurd h (by simp)) hno
    | true =>
      obtain ⟨he, _⟩ := plain_not (hpl c (by simp))
      have h43 : c = 43 ∨ c = 45 := by simpa [isSign] using hsc
      have h1 : k.charset c = false := by rcases hk with ⟨rfl, _⟩ | ⟨rfl, _⟩ <;> rcases h43 with rfl | rfl <;> rfl
      have h2 : c ≠ 95 := by omega
      refine t_imm (b' := true) (x' := nctx f as ty (v ++ [c])) (h' := .numeric k c) rfl rfl ?_ (fun _ => hty) ?_
      · simp only [handle, onNumeric, he, h1, h2, Bool.false_eq_true, if_false]
        rcases hp with ⟨rfl, h⟩ | ⟨rfl, h⟩ <;> simp only [NumKind.transition, hsc, h, Bool.and_self, if_true] <;> rfl
      refine t_badExpDigits h0 hstop hk ?_ (fun c hc => hpl c (by simp [hc])) (fun _ _ _ _ => hsc) ?_
      · rcases hk with ⟨rfl, _⟩ | ⟨rfl, _⟩ <;> simp [NumKind.badBefore, hsc]
      · rintro ⟨ds, h1, h2, h3⟩
        exact hbad ⟨[c], tok, ds, by rcases h43 with rfl | rfl <;> simp, h1, h2, h3, rfl⟩

/-- What follows a coefficient: an exponent or nothing. -/
theorem t_coefTable (h0 : Fate.o = some .ionException) (hstop : ∀ c r', r = c :: r' → TextSpec.IsStop c) {t co all : List Nat} {n : Nat} {tok v : List Nat} {ty : IonType}
    (hco : TextSpec.IsCoefficient co all n) (hs : TextSpec.Spelled t co) {dot : Bool} (hdot : dot = true → c ≠ 46) (hcs : isCS h = false)
    (hh : handle F P.env (nctx f as ty v) h { code := c } = andGo (wholeTable dot c (nctx f as ty v))) (hpl : ∀ c ∈ tok, Plain c) (hbad : ¬ TextSpec.IsNumeral (t ++ c :: tok)) :
    T F P false (nctx f as ty v) h false true (c :: (tok ++ r)) [] := by
  have hno : c ∈ asc ['d', 'D', 'e', 'E'] → ¬ ∃ s u ds, s ∈ [[], [43], [45]] ∧ ds ≠ [] ∧ TextSpec.Digits ds ∧ TextSpec.Spelled u ds ∧ tok = s ++ u := by
    rintro hc ⟨s, u, ds, h1, h2, h3, h4, rfl⟩
    exact hbad (.exponent t co all n c s u ds hco hs hc h1 h2 h3 h4)
  have h1 : (dot && decide (c = 46)) = false := by
    cases dot with
    | false => rfl
    | true => simpa using hdot rfl
  simp only [wholeTable, h1, Bool.false_eq_true, if_false] at hh
  cases hd : isDecExp c with
  | true =>
    simp only [hd, if_true, mkNumeric] at hh
    refine t_imm (b' := true) (x' := nctx f as .decimal (v ++ [101])) (h' := .numeric .decimal c) rfl hcs (hh.trans (by cases ty <;> rfl)) (fun _ => rfl) ?_
    refine t_badExp h0 hstop (.inl ⟨rfl, rfl⟩) (.inl ⟨rfl, hd⟩) hpl (hno ?_)
    simp only [isDecExp, Bool.or_eq_true, decide_eq_true_eq] at hd
    rcases hd with rfl | rfl <;> decide
  | false =>
    cases hf : isFloatExp c with
    | true =>
      simp only [hd, hf, if_true, mkNumeric, Bool.false_eq_true, if_false] at hh
      refine t_imm (b' := true) (x' := nctx f as .float (v ++ [c])) (h' := .numeric .float c) rfl hcs (hh.trans (by cases ty <;> rfl)) (fun _ => rfl) ?_
      refine t_badExp h0 hstop (.inr ⟨rfl, rfl⟩) (.inr ⟨rfl, hf⟩) hpl (hno ?_)
      simp only [isFloatExp, Bool.or_eq_true, decide_eq_true_eq] at hf
      rcases hf with rfl | rfl <;> decide
    | false =>
      simp only [hd, hf, Bool.false_eq_true, if_false] at hh
      exact t_err h0 rfl hcs hh

/-- After the point. -/
theorem t_badFraction (h0 : Fate.o = some .ionException) (hstop : ∀ c r', r = c :: r' → TextSpec.IsStop c) {t ds : List Nat} {tok v : List Nat}
    (hd : TextSpec.IsUInt ds) (hs : TextSpec.Spelled t ds) (hpl : ∀ c ∈ tok, Plain c) (hbad : ¬ TextSpec.IsNumeral (t ++ 46 :: tok)) :
    T F P false (nctx f as .decimal v) (.numeric .fractional 46) false true (tok ++ r) [] := by
  cases tok with
  | nil => exact absurd (.coefficient _ _ _ _ (.point ds [] hd (by simp [TextSpec.Digits])) (spelled_append hs (spelled_self [46]))) hbad
  | cons c tok =>
    obtain ⟨he, _⟩ := plain_not (hpl c (by simp))
    by_cases h95 : c = 95
    · refine t_err h0 rfl rfl ?_
      subst h95
      rfl
    · cases hce : isDigit c with
      | true =>
        refine t_imm (b' := true) (x' := nctx f as .decimal (v ++ [c])) (h' := .numeric .fractional c) rfl rfl ?_ (fun _ => rfl) ?_
        · simp only [handle, onNumeric, he, h95, NumKind.charset, hce, Bool.false_eq_true, if_false, if_true]
          rfl
        refine t_group rfl h0 hstop (digits_hex (by simp)) _ tok c _ (Nat.le_refl _) hce (fun c hc => hpl c (by simp [hc])) ?_
        intro u fs tok' h1 h2 h3 h4 h5
        have hfs : TextSpec.Digits (c :: fs) := by
          intro d hd
          rcases List.mem_cons.1 hd with rfl | hd
          · exact isDigit_iff.1 hce
          · exact isDigit_iff.1 (h3 d hd)
        have hco := TextSpec.IsCoefficient.point ds (c :: fs) hd hfs
        have hsp : TextSpec.Spelled (t ++ 46 :: c :: u) (ds ++ 46 :: c :: fs) := spelled_append hs (.cons _ _ _ h2)
        cases tok' with
        | nil =>
          rw [h1, List.append_nil] at hbad
          exact absurd (.coefficient _ _ _ _ hco hsp) hbad
        | cons c' tok' =>
          obtain ⟨h6, h7⟩ := h5 _ _ rfl
          obtain ⟨he', _⟩ := plain_not (hpl c' (by simp [h1]))
          have h8 : fs.getLastD c ≠ 95 := (digit_not h4).2.1
          refine t_coefTable (dot := false) h0 hstop hco hsp (by simp) rfl ?_ (fun c hc => hpl c (by simp [h1, hc])) (by rw [h1] at hbad; simpa using hbad)
          simp only [handle, onNumeric, he', h6, h7, h8, Bool.false_eq_true, if_false, NumKind.transition]
      | false =>
        refine t_coefTable (dot := false) h0 hstop (.point ds [] hd (by simp [TextSpec.Digits])) (spelled_append hs (spelled_self [46])) (by simp) rfl ?_
          (fun c hc => hpl c (by simp [hc])) (by simpa using hbad)
        simp only [handle, onNumeric, he, h95, NumKind.charset, hce, Bool.false_eq_true, if_false, NumKind.transition]
        rfl

/-- What follows an integer: a point, an exponent or nothing. -/
theorem t_intTable (h0 : Fate.o = some .ionException) (hstop : ∀ c r', r = c :: r' → TextSpec.IsStop c) {t ds : List Nat} {tok v : List Nat}
    (hd : TextSpec.IsUInt ds) (hs : TextSpec.Spelled t ds) (hcs : isCS h = false)
    (hh : handle F P.env (nctx f as .int v) h { code := c } = andGo (wholeTable true c (nctx f as .int v))) (hpl : ∀ c ∈ tok, Plain c)
    (hbad : ¬ TextSpec.IsNumeral (t ++ c :: tok)) : T F P false (nctx f as .int v) h false true (c :: (tok ++ r)) [] := by
  by_cases h46 : c = 46
  · subst h46
    refine t_imm (b' := true) (x' := nctx f as .decimal (v ++ [46])) (h' := .numeric .fractional 46) rfl hcs hh (fun _ => rfl) ?_
    exact t_badFraction h0 hstop hd hs hpl hbad
  · exact t_coefTable h0 hstop (.whole ds hd) hs (fun _ => h46) hcs hh hpl hbad

/-- The digits of an integer. -/
theorem t_badWhole (h0 : Fate.o = some .ionException) (hstop : ∀ c r', r = c :: r' → TextSpec.IsStop c) {p : Nat} {tok v : List Nat} (hp : isDigit p = true)
    {pre preds : List Nat} (hd : ∀ ds, TextSpec.Digits ds → TextSpec.IsUInt (preds ++ p :: ds))
    (hs : ∀ u ds, TextSpec.Spelled (p :: u) (p :: ds) → TextSpec.Spelled (pre ++ p :: u) (preds ++ p :: ds)) (hpl : ∀ c ∈ tok, Plain c)
    (hbad : ¬ TextSpec.IsNumeral (pre ++ p :: tok)) : T F P false (nctx f as .int v) (.numeric .whole p) false true (tok ++ r) [] := by
  refine t_group rfl h0 hstop (digits_hex (by simp)) _ tok p _ (Nat.le_refl _) hp hpl ?_
  intro u ds tok' h1 h2 h3 h4 h5
  have hdu := hd ds fun d hd => isDigit_iff.1 (h3 d hd)
  have hsu := hs u ds h2
  cases tok' with
  | nil =>
    rw [h1, List.append_nil] at hbad
    exact absurd (.coefficient _ _ _ _ (.whole _ hdu) hsu) hbad
  | cons c' tok' =>
    obtain ⟨h6, h7⟩ := h5 _ _ rfl
    obtain ⟨he', _⟩ := plain_not (hpl c' (by simp [h1]))
    have h8 : ds.getLastD p ≠ 95 := (digit_not h4).2.1
    refine t_intTable h0 hstop hdu hsu rfl ?_ (fun c hc => hpl c (by simp [h1, hc])) (by rw [h1] at hbad; simpa using hbad)
    simp only [handle, onNumeric, he', h6, h7, h8, Bool.false_eq_true, if_false, NumKind.transition]

omit [Fate] in
theorem digitsIn_of {base : Nat} (l : List Nat) : ∀ {pre : List Nat} {n : Nat}, TextSpec.DigitsIn base pre n → (∀ c ∈ l, ∃ v, TextSpec.HexDigit c v ∧ v < base) →
    ∃ m, TextSpec.DigitsIn base (pre ++ l) m := by
  induction l with
  | nil => intro pre n h _; exact ⟨n, by simpa using h⟩
  | cons c l ih =>
    intro pre n h hl
    obtain ⟨v, h1, h2⟩ := hl c (by simp)
    obtain ⟨m, hm⟩ := ih (.snoc pre n c v h h1 h2) fun c hc => hl c (by simp [hc])
    exact ⟨m, by simpa using hm⟩

omit [Fate] in
theorem radix_hex {k : NumKind} {base : Nat} (hk : (k = .binary ∧ base = 2) ∨ (k = .hex ∧ base = 16)) (d : Nat) (hd : k.charset d = true) :
    (∃ v, TextSpec.HexDigit d v ∧ v < base) ∧ k.badBefore d = false := by
  rcases hk with ⟨rfl, rfl⟩ | ⟨rfl, rfl⟩
  · simp only [NumKind.charset, Bool.or_eq_true, decide_eq_true_eq] at hd
    rcases hd with rfl | rfl
    · exact ⟨⟨_, .digit 48 (by omega) (by omega), by decide⟩, rfl⟩
    · exact ⟨⟨_, .digit 49 (by omega) (by omega), by decide⟩, rfl⟩
  · simp only [NumKind.charset] at hd
    obtain ⟨v, hv⟩ := hex_iff.1 hd
    refine ⟨⟨v, hv, by cases hv <;> omega⟩, ?_⟩
    simp only [NumKind.badBefore, Bool.or_eq_false_iff, decide_eq_false_iff_not]
    cases hv <;> omega

/-- A hexadecimal or binary number. -/
theorem t_badRadix (h0 : Fate.o = some .ionException) (hstop : ∀ c r', r = c :: r' → TextSpec.IsStop c) {k : NumKind} {base b : Nat}
    (hk : (k = .binary ∧ base = 2) ∨ (k = .hex ∧ base = 16)) (hb : base = 2 ∧ (b = 98 ∨ b = 66) ∨ base = 16 ∧ (b = 120 ∨ b = 88)) {tok v : List Nat} (hpl : ∀ c ∈ tok, Plain c)
    (hbad : ¬ TextSpec.IsNumeral (48 :: b :: tok)) : T F P false (nctx f as .int v) (.numeric k b) false true (tok ++ r) [] := by
  have hpb : k.badBefore b = true := by
    rcases hk with ⟨rfl, rfl⟩ | ⟨rfl, rfl⟩ <;> rcases hb with ⟨h, rfl | rfl⟩ | ⟨h, rfl | rfl⟩ <;> first | rfl | exact absurd h (by omega)
  have htr : ∀ p c, k.transition p c (nctx f as .int v) = .error .ionException := by rcases hk with ⟨rfl, _⟩ | ⟨rfl, _⟩ <;> intros <;> rfl
  have htr' : ∀ v p c, k.transition p c (nctx f as .int v) = .error .ionException := by rcases hk with ⟨rfl, _⟩ | ⟨rfl, _⟩ <;> intros <;> rfl
  cases tok with
  | nil =>
    refine t_stop h0 rfl rfl hstop fun c hc => ?_
    rcases hc with hc | hc
    · have : k.badEnd b = true := by rcases hk with ⟨rfl, _⟩ | ⟨rfl, _⟩ <;> exact hpb
      simp only [handle, onNumeric, hc, if_true, this, or_true]
    · rcases hk with ⟨rfl, _⟩ | ⟨rfl, _⟩ <;> rcases hc with rfl | rfl <;> rfl
  | cons c tok =>
    obtain ⟨he, _⟩ := plain_not (hpl c (by simp))
    by_cases h95 : c = 95
    · refine t_err h0 rfl rfl ?_
      subst h95
      simp only [handle, onNumeric, he, if_true, hpb, or_true, Bool.false_eq_true, if_false]
    · cases hce : k.charset c with
      | true =>
        refine t_imm (b' := true) (x' := nctx f as .int (v ++ [c])) (h' := .numeric k c) rfl rfl ?_ (fun _ => rfl) ?_
        · simp only [handle, onNumeric, he, h95, hce, Bool.false_eq_true, if_false, if_true]
          rfl
        refine t_group rfl h0 hstop (fun d hd => ?_) _ tok c _ (Nat.le_refl _) hce (fun c hc => hpl c (by simp [hc])) ?_
        · obtain ⟨⟨v, h1, _⟩, h2⟩ := radix_hex hk d hd
          exact ⟨⟨v, h1⟩, h2⟩
        intro t ds tok' h1 h2 h3 h4 h5
        cases tok' with
        | nil =>
          obtain ⟨m, hm⟩ := digitsIn_of (base := base) (c :: ds) .nil fun d hd => by
            rcases List.mem_cons.1 hd with rfl | hd
            · exact (radix_hex hk _ hce).1
            · exact (radix_hex hk _ (h3 d hd)).1
          rw [h1, List.append_nil] at hbad
          exact absurd (.radix base b _ _ m hb (by simp) hm h2) hbad
        | cons c' tok' =>
          obtain ⟨h6, h7⟩ := h5 _ _ rfl
          obtain ⟨he', _⟩ := plain_not (hpl c' (by simp [h1]))
          refine t_err h0 rfl rfl ?_
          simp only [handle, onNumeric, he', h6, h7, Bool.false_eq_true, if_false, htr']
      | false =>
        refine t_err h0 rfl rfl ?_
        simp only [handle, onNumeric, he, h95, hce, Bool.false_eq_true, if_false, htr]

/-! ## Timestamps -/

/-- A character that may not follow in a timestamp. -/
theorem t_tsErr (h0 : Fate.o = some .ionException) {s : TsState} {v : List Nat} (hh : s.nxt.has c = false) (hc : s.canTerminate = false ∨ c ≠ EOF) :
    T F P false (nctx f as .timestamp v) (.ts s) false true (c :: r) [] := by
  refine t_err h0 rfl rfl ?_
  have : (s.canTerminate && decide (c = EOF)) = false := by rcases hc with h | h <;> simp [h]
  simp [handle, onTs, hh, this]

/-- The end, where a timestamp may not end. -/
theorem t_tsStop (h0 : Fate.o = some .ionException) (hstop : ∀ c r', r = c :: r' → TextSpec.IsStop c) {s : TsState} {v : List Nat} (hs : s.canTerminate = false)
    (h11 : s.nxt.has 11 = false ∧ s.nxt.has 12 = false ∧ s.nxt.has EOF = false) : T F P false (nctx f as .timestamp v) (.ts s) false true r [] := by
  refine t_stop h0 rfl rfl hstop fun c hc => ?_
  rcases hc with hc | rfl | rfl
  · simp only [endsValue, Bool.or_eq_true, decide_eq_true_eq] at hc
    rcases hc with hc | rfl
    · by_cases hh : s.nxt.has c = true <;> simp [handle, onTs, hs, hh, hc]
    · simp [handle, onTs, hs, h11.2.2]
  · simp [handle, onTs, hs, h11.1]
  · simp [handle, onTs, hs, h11.2.1]

/-- Two digits. -/
theorem t_tsTwo (h0 : Fate.o = some .ionException) (hstop : ∀ c r', r = c :: r' → TextSpec.IsStop c) {s : TsState} {v : List Nat} {tok : List Nat} (hpl : ∀ c ∈ tok, Plain c)
    (hn : s.nxt = .digits ∨ (s.nxt = .digitsTerm ∧ tok ≠ [])) (hc : tok = [] → s.canTerminate = false) {m : Nat} {nx : TsNext} {ct : Bool}
    (h1 : ∀ a, isDigit a = true → ∃ tk, tsDigit { s with canTerminate := false } a = .ok { s with prev := a, state := m, tokens := tk, canTerminate := false })
    (h2 : ∀ a b tk, isDigit a = true → isDigit b = true → ∃ tk', tsDigit { prev := a, state := m, nxt := s.nxt, tokens := tk, canTerminate := false } b =
      .ok { prev := b, state := m, nxt := nx, tokens := tk', canTerminate := ct })
    (hr : ∀ a b tok' tk, tok = a :: b :: tok' → TextSpec.Digits [a, b] →
      T F P false (nctx f as .timestamp v) (.ts { prev := b, state := m, nxt := nx, tokens := tk, canTerminate := ct }) false true (tok' ++ r) []) :
    T F P false (nctx f as .timestamp v) (.ts s) false true (tok ++ r) [] := by
  have hd : ∀ c, isTerm c = false → s.nxt.has c = isDigit c := by
    intro c hc
    rcases hn with h | ⟨h, _⟩ <;> simp [h, TsNext.has, hc]
  have hno : s.nxt.has 11 = false ∧ s.nxt.has 12 = false ∧ s.nxt.has EOF = false := by
    rcases hn with h | ⟨h, _⟩ <;> rw [h] <;> exact ⟨rfl, rfl, rfl⟩
  have step : ∀ {s' s'' : TsState} {a : Nat}, Plain a → s'.nxt = s.nxt → isDigit a = true → tsDigit { s' with canTerminate := false } a = .ok s'' →
      handle F P.env (nctx f as .timestamp v) (.ts s') { code := a } = .ok { ctx := nctx f as .timestamp v, res := .imm (.ts s'') } := by
    intro s' s'' a hp hx ha ht
    obtain ⟨_, h3⟩ := plain_not hp
    have h4 : a ≠ EOF := by have := hp.1; simp only [EOF]; omega
    have h5 : a ≠ 90 ∧ a ≠ 84 ∧ a ≠ 45 ∧ a ≠ 58 ∧ a ≠ 43 ∧ a ≠ 46 := by
      simp only [isDigit, Bool.and_eq_true, decide_eq_true_eq] at ha
      omega
    have h6 : s'.nxt.has a = true := by rw [hx, hd a h3]; exact ha
    simp only [handle, onTs, h6, h3, h4, h5.1, h5.2.1, h5.2.2.1, h5.2.2.2.1, h5.2.2.2.2.1, h5.2.2.2.2.2, decide_false, Bool.and_false, Bool.not_true, Bool.false_and, Bool.or_false,
      Bool.false_eq_true, if_false, ha, if_true, ht]
  cases tok with
  | nil => exact t_tsStop h0 hstop (hc rfl) hno
  | cons a tok =>
    obtain ⟨he, h3⟩ := plain_not (hpl a (by simp))
    have h4 : a ≠ EOF := by have := (hpl a (by simp)).1; simp only [EOF]; omega
    cases ha : isDigit a with
    | false => exact t_tsErr h0 ((hd a h3).trans ha) (.inr h4)
    | true =>
      obtain ⟨tk, ht⟩ := h1 a ha
      refine t_imm (b' := true) rfl rfl (step (hpl a (by simp)) rfl ha ht) (fun _ => rfl) ?_
      cases tok with
      | nil => exact t_tsStop h0 hstop rfl hno
      | cons b tok =>
        obtain ⟨he', h3'⟩ := plain_not (hpl b (by simp))
        have h4' : b ≠ EOF := by have := (hpl b (by simp)).1; simp only [EOF]; omega
        cases hb : isDigit b with
        | false => exact t_tsErr h0 ((hd b h3').trans hb) (.inr h4')
        | true =>
          obtain ⟨tk', ht'⟩ := h2 a b tk ha hb
          refine t_imm (b' := true) rfl rfl (step (hpl b (by simp)) rfl hb ht') (fun _ => rfl) ?_
          refine hr a b tok tk' rfl fun c hc => ?_
          simp only [List.mem_cons, List.not_mem_nil, or_false] at hc
          rcases hc with rfl | rfl
          · exact isDigit_iff.1 ha
          · exact isDigit_iff.1 hb

omit [Fate] in
theorem plain_eof (h : Plain c) : c ≠ EOF := by
  have := h.1
  simp only [EOF]
  omega

/-- A delimiter in a timestamp. -/
theorem t_tsDelim {s : TsState} {v : List Nat} (hp : Plain c) (hx : s.nxt.has c = true) (hc : c = 45 ∨ c = 58 ∨ c = 43 ∨ c = 46)
    (hr : T F P false (nctx f as .timestamp v) (.ts { s with prev := c, nxt := .digits, canTerminate := false }) false true r es) :
    T F P false (nctx f as .timestamp v) (.ts s) false true (c :: r) es := by
  refine t_imm (b' := true) rfl rfl ?_ (fun _ => rfl) hr
  have h1 := (plain_not hp).2
  have h2 := plain_eof hp
  have h3 : c ≠ 90 ∧ c ≠ 84 := by omega
  have h4 : (decide (c = 45) || decide (c = 58) || decide (c = 43) || decide (c = 46)) = true := by simp only [Bool.or_eq_true, decide_eq_true_eq]; omega
  simp only [handle, onTs, hx, h1, h2, h3.1, h3.2, h4, decide_false, Bool.and_false, Bool.not_true, Bool.false_and, Bool.or_false, Bool.false_eq_true, if_false, if_true]

theorem t_tsT {s : TsState} {v : List Nat} (hx : s.nxt.has 84 = true)
    (hr : T F P false (nctx f as .timestamp v) (.ts { s with prev := 84, nxt := .digitsTerm, canTerminate := true }) false true r es) :
    T F P false (nctx f as .timestamp v) (.ts s) false true (84 :: r) es := by
  refine t_imm (b' := true) rfl rfl ?_ (fun _ => rfl) hr
  have h1 : isTerm 84 = false := rfl
  have h2 : decide (84 = EOF) = false := rfl
  simp only [handle, onTs, hx, h1, h2, Bool.and_false, Bool.not_true, Bool.false_and, Bool.or_false, Bool.false_eq_true, if_false, if_true, show ¬ (84 = 90) by omega]

/-- What follows the end of a timestamp. -/
theorem t_tsTerm (h0 : Fate.o = some .ionException) {s : TsState} {v : List Nat} {tok : List Nat} (hx : s.nxt = .term) (hpl : ∀ c ∈ tok, Plain c) (hne : tok ≠ []) :
    T F P false (nctx f as .timestamp v) (.ts s) false true (tok ++ r) [] := by
  cases tok with
  | nil => exact absurd rfl hne
  | cons c tok =>
    have hp := hpl c (by simp)
    exact t_tsErr h0 (by rw [hx]; exact (plain_not hp).2) (.inr (plain_eof hp))

theorem t_tsZ (h0 : Fate.o = some .ionException) {s : TsState} {v : List Nat} {tok : List Nat} (hx : s.nxt.has 90 = true) (hpl : ∀ c ∈ tok, Plain c) (hne : tok ≠ []) :
    T F P false (nctx f as .timestamp v) (.ts s) false true (90 :: (tok ++ r)) [] := by
  have h1 : isTerm 90 = false := rfl
  have h2 : decide (90 = EOF) = false := rfl
  refine t_imm (b' := true) (x' := nctx f as .timestamp v) (h' := .ts { s with prev := 90, nxt := .term, canTerminate := true, tokens := (s.tokens.upd 7 fun _ => some [48]).upd 8 fun _ => some [48] })
    rfl rfl ?_ (fun _ => rfl) (t_tsTerm h0 rfl hpl hne)
  simp only [handle, onTs, hx, h1, h2, Bool.and_false, Bool.not_true, Bool.false_and, Bool.or_false, Bool.false_eq_true, if_false, if_true]

omit [Fate] in
theorem digit_prev {a : Nat} (ha : isDigit a = true) : a ≠ 43 ∧ a ≠ 45 ∧ a ≠ 58 ∧ a ≠ 46 ∧ a ≠ 84 := by
  simp only [isDigit, Bool.and_eq_true, decide_eq_true_eq] at ha
  omega

omit [Fate] in
theorem tsDigit_first {s : TsState} (hp : s.prev = 45 ∨ s.prev = 58 ∨ s.prev = 84) (hs : s.prev = 45 → s.state ≤ 1) (hn : s.state ≠ 5) (a : Nat) :
    ∃ tk, tsDigit { s with canTerminate := false } a = .ok { s with prev := a, state := s.state + 1, tokens := tk, canTerminate := false } := by
  have h1 : ¬ (s.prev = 43 ∨ (s.state > 1 ∧ s.prev = 45)) := by omega
  have h2 : s.prev = 45 ∨ s.prev = 58 ∨ s.prev = 46 ∨ s.prev = 84 := by omega
  have h3 : s.state + 1 ≠ 6 := by omega
  refine ⟨(s.tokens.upd (s.state+1) fun _ => some []).upd (s.state+1) fun o => some (o.getD [] ++ [a]), ?_⟩
  simp only [tsDigit, if_neg h1, if_pos h2, if_neg h3]

omit [Fate] in
theorem tsDigit_offset {s : TsState} (hp : s.prev = 43 ∨ s.prev = 45 ∧ s.state > 1) (a : Nat) :
    ∃ tk, tsDigit { s with canTerminate := false } a = .ok { s with prev := a, state := 7, tokens := tk, canTerminate := false } := by
  have h1 : s.prev = 43 ∨ (s.state > 1 ∧ s.prev = 45) := by omega
  refine ⟨(s.tokens.upd 7 fun _ => some (if s.prev = 45 then [45] else [])).upd 7 fun o => some (o.getD [] ++ [a]), ?_⟩
  simp only [tsDigit, if_pos h1]

omit [Fate] in
theorem tsDigit_second {a b m : Nat} {nx : TsNext} {tk : TsTokens} (ha : isDigit a = true) {nx' : TsNext} {ct : Bool}
    (hm : (m, nx', ct) ∈ [(1, .yearDelim, false), (2, .tTerm, true), (3, .colon, false), (4, .offColon, false), (5, .offDot, false), (7, .colon, false), (8, .term, true)]) :
    ∃ tk', tsDigit { prev := a, state := m, nxt := nx, tokens := tk, canTerminate := false } b = .ok { prev := b, state := m, nxt := nx', tokens := tk', canTerminate := ct } := by
  obtain ⟨n1, n2, n3, n4, n5⟩ := digit_prev ha
  refine ⟨tk.upd m fun o => some (o.getD [] ++ [b]), ?_⟩
  simp only [tsDigit, n1, n2, n3, n4, n5, and_false, or_self, if_false, ha, if_true]
  simp only [List.mem_cons, List.not_mem_nil, or_false, Prod.mk.injEq] at hm
  rcases hm with ⟨rfl, rfl, rfl⟩ | ⟨rfl, rfl, rfl⟩ | ⟨rfl, rfl, rfl⟩ | ⟨rfl, rfl, rfl⟩ | ⟨rfl, rfl, rfl⟩ | ⟨rfl, rfl, rfl⟩ | ⟨rfl, rfl, rfl⟩ <;> rfl

omit [Fate] in
theorem digits4 {a b c d : Nat} (h : TextSpec.Digits [a, b]) (h' : TextSpec.Digits [c, d]) : TextSpec.Digits [a, b, c, d] := by
  intro x hx
  simp only [List.mem_cons, List.not_mem_nil, or_false] at hx
  rcases hx with rfl | rfl | rfl | rfl
  · exact h _ (by simp)
  · exact h _ (by simp)
  · exact h' _ (by simp)
  · exact h' _ (by simp)

/-- An offset after its sign. -/
theorem t_badOffset (h0 : Fate.o = some .ionException) (hstop : ∀ c r', r = c :: r' → TextSpec.IsStop c) {s : TsState} {v : List Nat} {tok : List Nat}
    (hp : s.prev = 43 ∨ s.prev = 45 ∧ s.state > 1) (hx : s.nxt = .digits) (hct : s.canTerminate = false) (hpl : ∀ c ∈ tok, Plain c)
    (hbad : ¬ ∃ a b c d, TextSpec.Digits [a, b, c, d] ∧ tok = [a, b, 58, c, d]) : T F P false (nctx f as .timestamp v) (.ts s) false true (tok ++ r) [] := by
  refine t_tsTwo (m := 7) (nx := .colon) (ct := false) h0 hstop hpl (.inl hx) (fun _ => hct) (fun a _ => tsDigit_offset hp a) (fun a b tk ha _ => tsDigit_second ha (by simp)) ?_
  rintro a b tok' tk rfl hab
  cases tok' with
  | nil => exact t_tsStop h0 hstop rfl ⟨rfl, rfl, rfl⟩
  | cons c tok' =>
    have hpc := hpl c (by simp)
    by_cases hc : c = 58
    · subst hc
      refine t_tsDelim hpc rfl (by simp) ?_
      have h8 := tsDigit_first (s := { prev := 58, state := 7, nxt := .digits, tokens := tk, canTerminate := false }) (by simp) (by simp) (by simp)
      refine t_tsTwo (m := 8) (nx := .term) (ct := true) h0 hstop (fun c hc => hpl c (by simp [hc])) (.inl rfl) (fun _ => rfl)
        (fun a _ => h8 a) (fun a b tk ha _ => tsDigit_second ha (by simp)) ?_
      rintro c d tok'' tk' rfl hcd
      refine t_tsTerm h0 rfl (fun c hc => hpl c (by simp [hc])) ?_
      rintro rfl
      exact hbad ⟨a, b, c, d, digits4 hab hcd, rfl⟩
    · exact t_tsErr h0 (by simp [TsNext.has, hc]) (.inr (plain_eof hpc))

/-- Where an offset must follow, or something else: nothing but an offset follows. -/
theorem t_badOff (h0 : Fate.o = some .ionException) (hstop : ∀ c r', r = c :: r' → TextSpec.IsStop c) {s : TsState} {v : List Nat} {tok : List Nat}
    (hst : s.state > 1) (hx : s.nxt = .offColon ∨ s.nxt = .offDot ∨ s.nxt = .digitsOff) (hct : s.canTerminate = false) (hpl : ∀ c ∈ tok, Plain c)
    (hno : ∀ c t, tok = c :: t → s.nxt.has c = true → c = 90 ∨ c = 43 ∨ c = 45)
    (hbad : ¬ TextSpec.IsOffsetShape tok) : T F P false (nctx f as .timestamp v) (.ts s) false true (tok ++ r) [] := by
  have hhas : s.nxt.has 90 = true ∧ s.nxt.has 43 = true ∧ s.nxt.has 45 = true := by rcases hx with h | h | h <;> rw [h] <;> exact ⟨rfl, rfl, rfl⟩
  cases tok with
  | nil => exact t_tsStop h0 hstop hct (by rcases hx with h | h | h <;> rw [h] <;> exact ⟨rfl, rfl, rfl⟩)
  | cons c tok =>
    have hpc := hpl c (by simp)
    cases hh : s.nxt.has c with
    | false => exact t_tsErr h0 hh (.inl hct)
    | true =>
      rcases hno c tok rfl hh with rfl | hc
      · refine t_tsZ h0 hhas.1 (fun c hc => hpl c (by simp [hc])) ?_
        rintro rfl
        exact hbad .utc
      · refine t_tsDelim hpc hh (by omega) (t_badOffset h0 hstop ?_ rfl rfl (fun c hc => hpl c (by simp [hc])) ?_)
        · rcases hc with rfl | rfl
          · exact .inl rfl
          · exact .inr ⟨rfl, hst⟩
        · rintro ⟨a, b, d, e, h1, rfl⟩
          exact hbad (.hours c a b d e hc h1)

/-- The digits of the fraction of the seconds. -/
theorem t_badFrac (h0 : Fate.o = some .ionException) (hstop : ∀ c r', r = c :: r' → TextSpec.IsStop c) {v : List Nat} : ∀ {tok : List Nat} {p : Nat} {tk : TsTokens},
    isDigit p = true → (∀ c ∈ tok, Plain c) → (¬ ∃ fs off, TextSpec.Digits fs ∧ TextSpec.IsOffsetShape off ∧ tok = fs ++ off) →
    T F P false (nctx f as .timestamp v) (.ts { prev := p, state := 6, nxt := .digitsOff, tokens := tk, canTerminate := false }) false true (tok ++ r) [] := by
  intro tok
  induction tok with
  | nil => intro p tk hp hpl _; exact t_tsStop h0 hstop rfl ⟨rfl, rfl, rfl⟩
  | cons c tok ih =>
    intro p tk hp hpl hbad
    have hpc := hpl c (by simp)
    cases hc : isDigit c with
    | true =>
      obtain ⟨n1, n2, n3, n4, n5⟩ := digit_prev hp
      obtain ⟨m1, m2, m3, m4, m5⟩ := digit_prev hc
      have h1 := (plain_not hpc).2
      have h2 := plain_eof hpc
      have m6 : c ≠ 90 := by
        simp only [isDigit, Bool.and_eq_true, decide_eq_true_eq] at hc
        omega
      have hx : TsNext.digitsOff.has c = true := by simp [TsNext.has, hc]
      refine t_imm (b' := true) (x' := nctx f as .timestamp v) (h' := .ts { prev := c, state := 6, nxt := .digitsOff, tokens := tk.upd 6 fun o => some (o.getD [] ++ [c]), canTerminate := false })
        rfl rfl ?_ (fun _ => rfl) (ih hc (fun c hc => hpl c (by simp [hc])) ?_)
      · simp only [handle, onTs, hx, h1, h2, m1, m2, m3, m4, m5, m6, decide_false, Bool.and_false, Bool.not_true, Bool.false_and, Bool.or_false, Bool.false_eq_true, if_false, hc, if_true,
          tsDigit, n1, n2, n3, n4, n5, and_false, or_self, hp]
      · rintro ⟨fs, off, h1, h2, rfl⟩
        exact hbad ⟨c :: fs, off, fun d hd => (List.mem_cons.1 hd).elim (fun h => by rw [h]; exact isDigit_iff.1 hc) (h1 d), h2, rfl⟩
    | false =>
      refine t_badOff h0 hstop (by simp) (.inr (.inr rfl)) rfl hpl ?_ fun ho => hbad ⟨[], _, by simp [TextSpec.Digits], ho, rfl⟩
      rintro _ _ ⟨⟩ hh
      simp only [TsNext.has, hc, Bool.false_or, Bool.or_eq_true, decide_eq_true_eq] at hh
      omega

/-- The time of day. -/
theorem t_badTime (h0 : Fate.o = some .ionException) (hstop : ∀ c r', r = c :: r' → TextSpec.IsStop c) {v : List Nat} {tok : List Nat} {tk : TsTokens}
    (hpl : ∀ c ∈ tok, Plain c) (hne : tok ≠ []) (hbad : ¬ TextSpec.IsTimeShape tok) :
    T F P false (nctx f as .timestamp v) (.ts { prev := 84, state := 2, nxt := .digitsTerm, tokens := tk, canTerminate := true }) false true (tok ++ r) [] := by
  have h3 := tsDigit_first (s := { prev := 84, state := 2, nxt := .digitsTerm, tokens := tk, canTerminate := true }) (by simp) (by simp) (by simp)
  refine t_tsTwo (m := 3) (nx := .colon) (ct := false) h0 hstop hpl (.inr ⟨rfl, hne⟩) (fun h => absurd h hne) (fun a _ => h3 a) (fun a b tk ha _ => tsDigit_second ha (by simp)) ?_
  rintro a b tok tk rfl hab
  cases tok with
  | nil => exact t_tsStop h0 hstop rfl ⟨rfl, rfl, rfl⟩
  | cons c tok =>
    have hpc := hpl c (by simp)
    by_cases hc : c = 58
    · subst hc
      refine t_tsDelim hpc rfl (by simp) ?_
      have h4 := tsDigit_first (s := { prev := 58, state := 3, nxt := .digits, tokens := tk, canTerminate := false }) (by simp) (by simp) (by simp)
      refine t_tsTwo (m := 4) (nx := .offColon) (ct := false) h0 hstop (fun c hc => hpl c (by simp [hc])) (.inl rfl) (fun _ => rfl)
        (fun a _ => h4 a) (fun a b tk ha _ => tsDigit_second ha (by simp)) ?_
      rintro c d tok tk' rfl hcd
      by_cases hcol : ∃ t, tok = 58 :: t
      · obtain ⟨tok, rfl⟩ := hcol
        refine t_tsDelim hpc rfl (by simp) ?_
        have h5 := tsDigit_first (s := { prev := 58, state := 4, nxt := .digits, tokens := tk', canTerminate := false }) (by simp) (by simp) (by simp)
        refine t_tsTwo (m := 5) (nx := .offDot) (ct := false) h0 hstop (fun c hc => hpl c (by simp [hc])) (.inl rfl) (fun _ => rfl)
          (fun a _ => h5 a) (fun a b tk ha _ => tsDigit_second ha (by simp)) ?_
        rintro e g tok tk'' rfl heg
        have hall : TextSpec.Digits [a, b, c, d, e, g] := by
          intro x hx
          have h6 := digits4 hab hcd
          rcases List.mem_append.1 (show x ∈ [a, b, c, d] ++ [e, g] from hx) with h | h
          · exact h6 x h
          · exact heg x h
        by_cases hdot : ∃ t, tok = 46 :: t
        · obtain ⟨tok, rfl⟩ := hdot
          refine t_tsDelim (hpl 46 (by simp)) rfl (by simp) ?_
          cases tok with
          | nil => exact t_tsStop h0 hstop rfl ⟨rfl, rfl, rfl⟩
          | cons y tok =>
            have hpy := hpl y (by simp)
            cases hy : isDigit y with
            | false => exact t_tsErr h0 hy (.inl rfl)
            | true =>
              obtain ⟨m1, m2, m3, m4, m5⟩ := digit_prev hy
              have h1 := (plain_not hpy).2
              have h2 := plain_eof hpy
              have m6 : y ≠ 90 := by
                simp only [isDigit, Bool.and_eq_true, decide_eq_true_eq] at hy
                omega
              have hx : TsNext.digits.has y = true := by simp [TsNext.has, hy]
              refine t_imm (b' := true) (x' := nctx f as .timestamp v) (h' := .ts { prev := y, state := 6, nxt := .digitsOff, tokens := (tk''.upd 6 fun _ => some []).upd 6 fun o => some (o.getD [] ++ [y]), canTerminate := false })
                rfl rfl ?_ (fun _ => rfl) (t_badFrac h0 hstop hy (fun c hc => hpl c (by simp [hc])) ?_)
              · simp only [handle, onTs, hx, h1, h2, m1, m2, m3, m4, m5, m6, decide_false, Bool.and_false, Bool.not_true, Bool.false_and, Bool.or_false, Bool.false_eq_true, if_false, hy, if_true,
                  tsDigit]
                rfl
              · rintro ⟨fs, off, h3, h4, rfl⟩
                exact hbad (.fraction a b c d e g (y :: fs) off hall (by simp) (fun d hd => (List.mem_cons.1 hd).elim (fun h => by rw [h]; exact isDigit_iff.1 hy) (h3 d)) h4)
        · refine t_badOff h0 hstop (by simp) (.inr (.inl rfl)) rfl (fun c hc => hpl c (by simp [hc])) ?_ fun ho => hbad (.second a b c d e g _ hall ho)
          rintro x t rfl hh
          have : x ≠ 46 := by rintro rfl; exact hdot ⟨_, rfl⟩
          simp only [TsNext.has, Bool.or_eq_true, decide_eq_true_eq] at hh
          omega
      · refine t_badOff h0 hstop (by simp) (.inl rfl) rfl (fun c hc => hpl c (by simp [hc])) ?_ fun ho => hbad (.minute a b c d _ (digits4 hab hcd) ho)
        rintro x t rfl hh
        have : x ≠ 58 := by rintro rfl; exact hcol ⟨_, rfl⟩
        simp only [TsNext.has, Bool.or_eq_true, decide_eq_true_eq] at hh
        omega
    · exact t_tsErr h0 (by simp [TsNext.has, hc]) (.inr (plain_eof hpc))

/-- A timestamp after the year and the delimiter `s`. -/
theorem t_badTimestamp (h0 : Fate.o = some .ionException) (hstop : ∀ c r', r = c :: r' → TextSpec.IsStop c) {v y : List Nat} {tok : List Nat} {s : Nat} (hs : s = 45 ∨ s = 84)
    (hpl : ∀ c ∈ tok, Plain c) (hy : y.length = 4) (hyd : TextSpec.Digits y) (hbad : ¬ TextSpec.IsTimestampShape (y ++ s :: tok)) :
    T F P false (nctx f as .timestamp v) (.ts { prev := s, nxt := if s = 84 then .digitsTerm else .digits, canTerminate := decide (s = 84) }) false true (tok ++ r) [] := by
  have hne : s = 84 → tok ≠ [] := by
    rintro rfl rfl
    exact hbad (.year y hy hyd)
  have h1 := tsDigit_first (s := { prev := s, nxt := if s = 84 then .digitsTerm else .digits, canTerminate := decide (s = 84) }) (by simp; omega) (by simp) (by simp)
  refine t_tsTwo (m := 1) (nx := .yearDelim) (ct := false) h0 hstop hpl ?_ ?_ (fun a _ => h1 a) (fun a b tk ha _ => tsDigit_second ha (by simp)) ?_
  · rcases hs with rfl | rfl
    · exact .inl rfl
    · exact .inr ⟨rfl, hne rfl⟩
  · rintro hn
    exact decide_eq_false fun h => hne h hn
  rintro a b tok tk rfl hab
  cases tok with
  | nil => exact t_tsStop h0 hstop rfl ⟨rfl, rfl, rfl⟩
  | cons s' tok =>
    have hps := hpl s' (by simp)
    have key : ∀ {nx : TsNext} {ct : Bool}, s' = 45 ∨ s' = 84 → nx = .digits ∧ ct = false ∨ nx = .digitsTerm ∧ tok ≠ [] →
        T F P false (nctx f as .timestamp v) (.ts { prev := s', state := 1, nxt := nx, tokens := tk, canTerminate := ct }) false true (tok ++ r) [] := by
      intro nx ct hs' hnx
      have h2 := tsDigit_first (s := { prev := s', state := 1, nxt := nx, tokens := tk, canTerminate := ct }) (by simp; omega) (by simp) (by simp)
      refine t_tsTwo (m := 2) (nx := .tTerm) (ct := true) h0 hstop (fun c hc => hpl c (by simp [hc])) ?_ ?_ (fun a _ => h2 a) (fun a b tk ha _ => tsDigit_second ha (by simp)) ?_
      · rcases hnx with ⟨h, _⟩ | h
        · exact .inl h
        · exact .inr h
      · intro hn
        rcases hnx with ⟨_, h⟩ | ⟨_, h⟩
        · exact h
        · exact absurd hn h
      rintro c d tok tk' rfl hcd
      cases tok with
      | nil => exact absurd (.day y s a b s' c d [] hy hyd hs hab hs' hcd (.inl rfl)) hbad
      | cons t tok =>
        have hpt := hpl t (by simp)
        by_cases ht : t = 84
        · subst ht
          refine t_tsT rfl (t_badTime h0 hstop (fun c hc => hpl c (by simp [hc])) ?_ fun hts => hbad (.day y s a b s' c d _ hy hyd hs hab hs' hcd (.inr (.inr ⟨_, rfl, hts⟩))))
          rintro rfl
          exact hbad (.day y s a b s' c d _ hy hyd hs hab hs' hcd (.inr (.inl rfl)))
        · exact t_tsErr h0 (by simp [TsNext.has, ht, (plain_not hpt).2]) (.inr (plain_eof hpt))
    by_cases h45 : s' = 45
    · subst h45
      exact t_tsDelim hps rfl (by simp) (key (.inl rfl) (.inl ⟨rfl, rfl⟩))
    · by_cases h84 : s' = 84
      · subst h84
        refine t_tsT rfl (key (.inr rfl) (.inr ⟨rfl, ?_⟩))
        rintro rfl
        exact hbad (.month y s a b hy hyd hs hab)
      · exact t_tsErr h0 (by simp [TsNext.has, h45, h84]) (.inl rfl)

/-! ## Numbers -/

omit [Fate] in
theorem digits_split (tok : List Nat) : ∃ ds tok', tok = ds ++ tok' ∧ TextSpec.Digits ds ∧ ∀ c t, tok' = c :: t → isDigit c = false := by
  induction tok with
  | nil => exact ⟨[], [], rfl, by simp [TextSpec.Digits], by simp⟩
  | cons c tok ih =>
    cases hc : isDigit c with
    | false => exact ⟨[], c :: tok, rfl, by simp [TextSpec.Digits], by rintro _ _ ⟨⟩; exact hc⟩
    | true =>
      obtain ⟨ds, tok', rfl, h1, h2⟩ := ih
      exact ⟨c :: ds, tok', rfl, fun d hd => (List.mem_cons.1 hd).elim (fun h => by rw [h]; exact isDigit_iff.1 hc) (h1 d), h2⟩

omit [Fate] in
theorem digits_append {a b : List Nat} (ha : TextSpec.Digits a) (hb : TextSpec.Digits b) : TextSpec.Digits (a ++ b) :=
  fun c hc => (List.mem_append.1 hc).elim (ha c) (hb c)

/-- The digits after a leading zero: only those of a year. -/
theorem t_badTsZero (h0 : Fate.o = some .ionException) (hstop : ∀ c r', r = c :: r' → TextSpec.IsStop c) : ∀ {tok v : List Nat}, TextSpec.Digits v → (∀ c ∈ tok, Plain c) →
    ¬ TextSpec.IsTimestampShape (v ++ tok) → T F P false (nctx f as .timestamp v) .tsZero false true (tok ++ r) [] := by
  intro tok
  induction tok with
  | nil =>
    intro v hv _ _
    refine t_stop h0 rfl rfl hstop fun c hc => ?_
    have h1 : isDigit c = false ∧ c ≠ 45 ∧ c ≠ 84 := by
      rcases hc with hc | rfl | rfl
      · refine ⟨?_, ?_, ?_⟩
        · rw [Bool.eq_false_iff]
          intro hd
          rw [(digit_not hd).1] at hc
          exact absurd hc (by simp)
        · rintro rfl
          exact absurd hc (by decide)
        · rintro rfl
          exact absurd hc (by decide)
      · exact ⟨rfl, by omega, by omega⟩
      · exact ⟨rfl, by omega, by omega⟩
    simp [handle, h1]
  | cons c tok ih =>
    intro v hv hpl hbad
    by_cases hc : c = 45 ∨ c = 84
    · by_cases hl : v.length = 4
      · refine t_imm (b' := true) (x' := nctx f as .timestamp v) (h' := .ts { prev := c, nxt := if c = 84 then .digitsTerm else .digits, canTerminate := decide (c = 84) }) rfl rfl ?_
          (fun _ => rfl) (t_badTimestamp h0 hstop hc (fun c hc => hpl c (by simp [hc])) hl hv hbad)
        have : ¬ (nctx f as .timestamp v).value.length ≠ 4 := by simpa [nctx] using hl
        have h2 : ((nctx f as .timestamp v).setType (some .timestamp)) = nctx f as .timestamp v := rfl
        simp only [handle, hc, if_true, mkTimestamp, h2, if_neg this, andGo]
      · refine t_err h0 rfl rfl ?_
        have : (nctx f as .timestamp v).value.length ≠ 4 := hl
        have h2 : ((nctx f as .timestamp v).setType (some .timestamp)) = nctx f as .timestamp v := rfl
        simp only [handle, hc, if_true, mkTimestamp, h2, if_pos this, andGo]
    · cases hd : isDigit c with
      | true =>
        refine t_imm (b' := true) (x' := nctx f as .timestamp (v ++ [c])) (h' := .tsZero) rfl rfl ?_ (fun _ => rfl)
          (ih (digits_append hv (by simpa [TextSpec.Digits] using isDigit_iff.1 hd)) (fun c hc => hpl c (by simp [hc])) (by simpa using hbad))
        simp only [handle, hc, if_false, hd, if_true]
        rfl
      | false =>
        refine t_err h0 rfl rfl ?_
        simp only [handle, hc, if_false, hd, Bool.false_eq_true]

/-- A number that starts with zero. -/
theorem t_badZero (h0 : Fate.o = some .ionException) (hstop : ∀ c r', r = c :: r' → TextSpec.IsStop c) (neg : Bool) {tok : List Nat} (hpl : ∀ c ∈ tok, Plain c)
    (hbad : ¬ TextSpec.IsNumeral (48 :: tok)) (hts : neg = false → ¬ TextSpec.IsTimestampShape (48 :: tok)) :
    T F P false (nctx f as .int (TextSpec.signText neg ++ [48])) .zeroStart false true (tok ++ r) [] := by
  have hz : TextSpec.IsUInt [48] := .inl rfl
  cases tok with
  | nil => exact absurd (.coefficient _ _ _ _ (.whole _ hz) (spelled_self [48])) hbad
  | cons c tok =>
    obtain ⟨he, _⟩ := plain_not (hpl c (by simp))
    have hpl' : ∀ c ∈ tok, Plain c := fun c hc => hpl c (by simp [hc])
    have hval : (nctx f as .int (TextSpec.signText neg ++ [48])).value = [48] ∨ (nctx f as .int (TextSpec.signText neg ++ [48])).value = [45, 48] := by
      cases neg
      · exact .inl rfl
      · exact .inr rfl
    have hval' : ((nctx f as .int (TextSpec.signText neg ++ [48])).value = [48] ∨ (nctx f as .int (TextSpec.signText neg ++ [48])).value = [45, 48]) ∧
        (nctx f as .int (TextSpec.signText neg ++ [48])).ionType = some .int := ⟨hval, rfl⟩
    by_cases hb : c = 66 ∨ c = 98
    · refine t_imm (b' := true) (x' := nctx f as .int (TextSpec.signText neg ++ [48] ++ [c])) (h' := .numeric .binary c) rfl rfl ?_ (fun _ => rfl)
        (t_badRadix (base := 2) h0 hstop (.inl ⟨rfl, rfl⟩) (.inl ⟨rfl, hb.symm⟩) hpl' hbad)
      simp only [handle, he, Bool.false_eq_true, if_false, if_pos hb, mkNumeric, if_pos hval', andGo]
      rfl
    · by_cases hx : c = 88 ∨ c = 120
      · refine t_imm (b' := true) (x' := nctx f as .int (TextSpec.signText neg ++ [48] ++ [c])) (h' := .numeric .hex c) rfl rfl ?_ (fun _ => rfl)
          (t_badRadix (base := 16) h0 hstop (.inr ⟨rfl, rfl⟩) (.inr ⟨rfl, hx.symm⟩) hpl' hbad)
        simp only [handle, he, Bool.false_eq_true, if_false, if_neg hb, if_pos hx, mkNumeric, if_pos hval', andGo]
        rfl
      · cases hd : isDigit c with
        | true =>
          cases neg with
          | true =>
            refine t_err h0 rfl rfl ?_
            simp only [handle, he, Bool.false_eq_true, if_false, if_neg hb, if_neg hx, hd, if_true]
            rfl
          | false =>
            refine t_imm (b' := true) (x' := nctx f as .timestamp [48, c]) (h' := .tsZero) rfl rfl ?_ (fun _ => rfl)
              (t_badTsZero h0 hstop ?_ hpl' (hts rfl))
            · simp only [handle, he, Bool.false_eq_true, if_false, if_neg hb, if_neg hx, hd, if_true]
              rfl
            · have := isDigit_iff.1 hd
              intro d hd
              simp only [List.mem_cons, List.not_mem_nil, or_false] at hd
              rcases hd with rfl | rfl
              · exact ⟨by omega, by omega⟩
              · exact this
        | false =>
          refine t_intTable h0 hstop hz (spelled_self [48]) rfl ?_ hpl' hbad
          simp only [handle, he, Bool.false_eq_true, if_false, if_neg hb, if_neg hx, hd]

/-- An integer that starts with another digit, or a timestamp. -/
theorem t_badNumber (h0 : Fate.o = some .ionException) (hstop : ∀ c r', r = c :: r' → TextSpec.IsStop c) {d : Nat} {tok : List Nat} (hd1 : 49 ≤ d) (hd2 : d ≤ 57) (hpl : ∀ c ∈ tok, Plain c)
    (hbad : ¬ TextSpec.IsNumeral (d :: tok)) (hts : ¬ TextSpec.IsTimestampShape (d :: tok)) : T F P false (nctx f as .int [d]) .number false true (tok ++ r) [] := by
  obtain ⟨ds, tok, rfl, hds, hnd⟩ := digits_split tok
  rw [List.append_assoc]
  refine t_numberDigits hds ?_
  have hdd : TextSpec.Digits (d :: ds) := fun c hc => (List.mem_cons.1 hc).elim (fun h => by rw [h]; exact ⟨by omega, hd2⟩) (hds c)
  have hu : TextSpec.IsUInt (d :: ds) := .inr ⟨d, ds, rfl, hd1, hd2, hds⟩
  have hval : (nctx f as .int ([d] ++ ds)).value = d :: ds := rfl
  cases tok with
  | nil => exact absurd (.coefficient _ _ _ _ (.whole _ hu) (by rw [List.append_nil]; exact spelled_self _)) hbad
  | cons c tok =>
    obtain ⟨he, _⟩ := plain_not (hpl c (by simp))
    have hpl' : ∀ c ∈ tok, Plain c := fun c hc => hpl c (by simp [hc])
    have hcd := hnd c tok rfl
    by_cases hc : c = 45 ∨ c = 84
    · have h2 : ((nctx f as .int ([d] ++ ds)).setType (some .timestamp)) = nctx f as .timestamp (d :: ds) := rfl
      have h3 : (nctx f as .timestamp (d :: ds)).value = d :: ds := rfl
      by_cases hl : (d :: ds).length = 4
      · refine t_imm (b' := true) (x' := nctx f as .timestamp (d :: ds)) (h' := .ts { prev := c, nxt := if c = 84 then .digitsTerm else .digits, canTerminate := decide (c = 84) }) rfl rfl ?_
          (fun _ => rfl) (t_badTimestamp h0 hstop hc hpl' hl hdd hts)
        simp only [handle, he, hcd, Bool.false_eq_true, if_false, hc, if_true, mkTimestamp, h2, h3, hl, ne_eq, not_true_eq_false, andGo]
      · refine t_err h0 rfl rfl ?_
        simp only [handle, he, hcd, Bool.false_eq_true, if_false, hc, if_true, mkTimestamp, h2, h3, hl, ne_eq, not_false_eq_true, andGo]
    · by_cases h95 : c = 95
      · subst h95
        refine t_imm (b' := true) (x' := nctx f as .int ([d] ++ ds)) (h' := .numeric .whole 95) rfl rfl ?_ (fun _ => rfl) ?_
        · simp only [handle, he, hcd, Bool.false_eq_true, if_false, hc, if_true, mkNumeric, andGo]
        cases tok with
        | nil =>
          refine t_stop h0 rfl rfl hstop fun c hc => ?_
          rcases hc with hc | rfl | rfl
          · simp only [handle, onNumeric, hc, if_true, true_or]
          · rfl
          · rfl
        | cons e tok =>
          obtain ⟨he', _⟩ := plain_not (hpl e (by simp))
          by_cases he95 : e = 95
          · subst he95
            exact t_err h0 rfl rfl rfl
          cases hed : isDigit e with
          | false =>
            refine t_err h0 rfl rfl ?_
            simp only [handle, onNumeric, he', he95, NumKind.charset, hed, Bool.false_eq_true, if_false, NumKind.transition, if_true]
          | true =>
            refine t_imm (b' := true) (x' := nctx f as .int ([d] ++ ds ++ [e])) (h' := .numeric .whole e) rfl rfl ?_ (fun _ => rfl) ?_
            · simp only [handle, onNumeric, he', he95, NumKind.charset, hed, Bool.false_eq_true, if_false, if_true]
              rfl
            refine t_badWhole (pre := (d :: ds) ++ [95]) (preds := d :: ds) h0 hstop hed (fun fs hfs => ?_) (fun u fs hs => ?_) (fun c hc => hpl c (by simp [hc])) (by simpa using hbad)
            · refine .inr ⟨d, ds ++ e :: fs, rfl, hd1, hd2, digits_append hds fun c hc => (List.mem_cons.1 hc).elim (fun h => by rw [h]; exact isDigit_iff.1 hed) (hfs c)⟩
            · rw [List.append_assoc]
              exact spelled_under (by simp) hdd (isDigit_iff.1 hed) hs
      · refine t_intTable h0 hstop hu (spelled_self _) rfl ?_ hpl' hbad
        simp only [handle, he, hcd, Bool.false_eq_true, if_false, hc, h95]

theorem at_badNumber (h0 : Fate.o = some .ionException) (hb : TextSpec.BadNumber r) (hle : ∀ c ∈ r, c ≤ 0x10FFFF) : At F P false false (childOf f as) cm r [] := by
  cases hb with
  | unsigned d tok r hd hrun hn hts =>
    have hpl : ∀ c ∈ tok, Plain c := fun c hc => ⟨hle c (by simp [hc]), hrun.1 c (by simp [hc])⟩
    have hdig : isDigit d = true := isDigit_iff.2 hd
    by_cases h48 : d = 48
    · subst h48
      exact at_value (x := nctx f as .int [48]) (h := .zeroStart) (q := false) (plainStart_of (.inr (by decide)) P) rfl rfl (t_badZero h0 hrun.2 false hpl hn fun _ => hts)
    · have h1 : 49 ≤ d := by have := hd.1; omega
      have hv : valueTable P.env d (dec f as) = .ok (nctx f as .int [d], .number) := by
        have : d ≠ 45 ∧ d ≠ 43 ∧ d ≠ 48 ∧ d ≠ 123 ∧ d ≠ 40 ∧ d ≠ 91 ∧ d ≠ 39 ∧ d ≠ 34 ∧ d ≠ 36 := by have := hd.2; omega
        obtain ⟨n1, n2, n3, n4, n5, n6, n7, n8, n9⟩ := this
        simp only [valueTable, n1, n2, n3, n4, n5, n6, n7, n8, n9, if_false, hdig, if_true]
        rfl
      have hq : (decide (d = 34) || decide (d = 39)) = false := by
        have : d ≠ 39 ∧ d ≠ 34 := by omega
        simp [this]
      exact at_value (q := false) (plainStart_of (.inr hdig) P) hv hq (t_badNumber h0 hrun.2 h1 hd.2 hpl hn hts)
  | negative d tok r hd hrun hn =>
    have hpl : ∀ c ∈ tok, Plain c := fun c hc => ⟨hle c (by simp [hc]), hrun.1 c (by simp [hc])⟩
    have hdig : isDigit d = true := isDigit_iff.2 hd
    refine at_value (x := nctx f as .int [45]) (h := .negStart) (q := false) (plainStart_of (.inl (by decide)) P) rfl rfl ?_
    by_cases h48 : d = 48
    · subst h48
      exact t_imm (x' := nctx f as .int [45, 48]) (h' := .zeroStart) rfl rfl rfl (fun _ => rfl) (t_badZero h0 hrun.2 true hpl hn (by simp))
    · have h1 : 49 ≤ d := by have := hd.1; omega
      have h95 : d ≠ 95 := by have := hd.2; omega
      have hh : handle F P.env (nctx f as .int [45]) .negStart { code := d } = .ok { ctx := nctx f as .int [45, d], res := .imm (.numeric .whole d) } := by
        simp only [handle, h48, if_false, hdig, if_true, mkNumeric, h95, andGo]
        rfl
      refine t_imm rfl rfl hh (fun _ => rfl) (t_badWhole (pre := []) (preds := []) h0 hrun.2 hdig (fun fs hfs => ?_) (fun u fs hs => hs) hpl hn)
      exact .inr ⟨d, fs, rfl, h1, hd.2, hfs⟩
end
end Ion.TextReader
