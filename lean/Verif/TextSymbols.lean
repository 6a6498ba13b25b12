import Verif.TextSteps
set_option linter.unusedSimpArgs false
/-!
# Symbols, as the text reader reads them

A symbol token in any of its roles (value, annotation, field name), up to the character that decides the role.
-/
namespace Ion.TextReader
open Ion
variable [Fate]

/-- The characters that may follow a value or a symbol. -/
def enders : List Nat := [EOF, 32, 9, 10, 13, 44, 93, 41, 125, 58, 47, 123, 91, 40, 34, 39]

omit [Fate] in
theorem enders_facts : ∀ c ∈ enders, isIdChar c = false ∧ isDigit c = false ∧ c ≠ 46 ∧ c ≠ 95 ∧ (c = 58 ∨ endsValue c = true) ∧
    (isSymTerm c = (isWs c || c = 58 || c = 47)) ∧ (isWs c = true → isTerm c = true) := by decide

omit [Fate] in
theorem isIdChar_lt {c : Nat} (hc : isIdChar c = true) : c < 128 := by
  simp only [isIdChar, isIdStart, isLetter, isDigit, Bool.or_eq_true, Bool.and_eq_true, decide_eq_true_eq] at hc
  omega

omit [Fate] in
theorem idChar_facts : ∀ c < 128, isIdChar c = true → isWs c = false ∧ isSymTerm c = false ∧ endsValue c = false ∧ isOp c = false ∧ c ≠ 46 ∧ c ≠ 58 := by
  decide +kernel

omit [Fate] in
theorem isIdChar_not {c : Nat} (hc : isIdChar c = true) : isWs c = false ∧ isSymTerm c = false ∧ endsValue c = false ∧ isOp c = false ∧ c ≠ 46 ∧ c ≠ 58 :=
  idChar_facts c (isIdChar_lt hc) hc

/-- Whitespace and comments `g` and what comes then. -/
structure Follow (P : Loc) (g r : List Nat) : Prop where
  triv : TextSpec.IsTrivia g
  start : StartsOp P false r
  blank : r.headD 0 = 47 → TextSpec.IsBlank g

omit [Fate] in
theorem startsOp_of {P : Loc} {qu : Bool} {r : List Nat} (h : ∀ c r', r = c :: r' → followStart c = true) : StartsOp P qu r := fun c r' hc => .inl (h c r' hc)

omit [Fate] in
theorem head_of {r : List Nat} (h : ∀ c r', r = c :: r' → followStart c = true) : r.headD 0 ≠ 47 := by
  cases r with
  | nil => decide
  | cons c r =>
    have := h c r rfl
    simp only [followStart, Bool.and_eq_true, Bool.not_eq_true', decide_eq_true_eq] at this
    exact this.1.2

omit [Fate] in
theorem StartsOp.other {P : Loc} {qu : Bool} {r : List Nat} (h : StartsOp P qu r) (h1 : r.headD 0 ≠ 47) : ∀ c r', r = c :: r' → followStart c = true := by
  rintro c r' rfl
  exact (h c r' rfl).resolve_right fun h2 => h1 h2.1

omit [Fate] in
theorem Follow.of {P : Loc} {g r : List Nat} (h1 : TextSpec.IsTrivia g) (h : ∀ c r', r = c :: r' → followStart c = true) : Follow P g r :=
  ⟨h1, startsOp_of h, fun h2 => absurd h2 (head_of h)⟩

/-- What the symbol `t` leads to; in an s-expression, its event exists. -/
def SymR (F : FloatText) (P : Loc) (fld : Bool) (f : Option SymbolToken) (as : List SymbolToken) (t : Tok) (r : List Nat) (es : List IonEvent) : Prop :=
  (P.ty = some .sexp → ∃ e, (dec f as).symbolEvent P.outer.length t = .ok e) ∧ SymK F P fld f as t r es

omit [Fate] in
theorem isWs_of {c : Nat} (hc : TextSpec.IsSpace c) : isWs c = true := by
  simp only [isWs, isWsNotNl, isNewline, Bool.or_eq_true, decide_eq_true_eq]
  simp only [TextSpec.IsSpace] at hc
  omega

omit [Fate] in
theorem comment_head {cm : List Nat} (h : TextSpec.IsComment cm) : ∃ m, cm = 47 :: m := by
  cases h <;> exact ⟨_, rfl⟩

/-- The context while an unquoted symbol is read. -/
structure SymCtx (f : Option SymbolToken) (as : List SymbolToken) (x : Ctx) : Prop where
  fieldName : x.fieldName = f
  annotations : x.annotations = as
  ionType : x.ionType = some .symbol
  isText : x.isText = true
  quoted : x.quoted = false
  lineComment : x.lineComment = false
  selfDelim : x.selfDelim = false
  composite : x.composite = false

section
variable {F : FloatText} {P : Loc} {fld : Bool} {x x' : Ctx} {h h' : H} {q b b' : Bool} {r g : List Nat} {es : List IonEvent} {cm : Bool} {c : Nat}
  {f : Option SymbolToken} {as : List SymbolToken} {t : Tok}

omit [Fate] in
theorem SymCtx.push (hx : SymCtx f as x) (c : Nat) : SymCtx f as (x.push c) := by
  obtain ⟨a, b, c, d, e, f, g, h⟩ := hx
  exact ⟨a, b, c, d, e, f, g, h⟩

omit [Fate] in
theorem SymCtx.pend (hx : SymCtx f as x) : Pend f as t ((x.setPending t).setType none) := by
  obtain ⟨a, b, c, d, e, f, g, h⟩ := hx
  have : (x.setPending t).setType none = { x with value := [], isText := false, pending := some t, lineComment := false, ionType := none } := by
    simp [Ctx.setPending, Ctx.setType, c]
  rw [this]
  exact ⟨a, b, rfl, rfl, rfl, rfl, h⟩

omit [Fate] in
theorem pend_isSome (hx : Pend f as t x) : x.pending.isSome = true := by simp [hx.pending]

/-- An unquoted symbol is complete, and a slash is sent to the handler. -/
theorem t_symbolSlash (hx : SymCtx f as x) (hcs : isCS h = false)
    (hh : handle F P.env x h { code := 47 } = symbolEnd P.env 47 x fld t) (hk : PAt F P fld f as t false (47 :: r) es) :
    T F P fld x h false true (47 :: r) es := by
  have h1 : symbolEnd P.env 47 x fld t =
      .ok { ctx := (({ x with selfDelim := x.quoted } : Ctx).setPending t).setQuoted false, res := .self } := by
    have : isSymTerm 47 = true := by decide
    simp [symbolEnd, this]
  rw [h1] at hh
  have h2 : (({ x with selfDelim := x.quoted } : Ctx).setPending t).setQuoted false = x.setPending t := by
    obtain ⟨a, b, c, d, e, f, g, h⟩ := hx
    cases x
    simp_all [Ctx.setPending, Ctx.setQuoted]
  rw [h2] at hh
  exact t_self hx.quoted hcs hh hx.pend (fun _ => hx.quoted) hx.selfDelim (fun _ => rfl) hk

/-- An unquoted symbol is complete, and the character that decides its role is sent to the handler. -/
theorem t_symbolEnd (hx : SymCtx f as x) (hcs : isCS h = false) (hs0 : StartsOp P false r)
    (hh : handle F P.env x h { code := r.headD EOF } = symbolEnd P.env (r.headD EOF) x fld t) (hk : SymK F P fld f as t r es) :
    T F P fld x h false true r es := by
  by_cases h47 : r.headD 0 = 47
  · cases r with
    | nil => cases h47
    | cons c r =>
      simp only [List.headD_cons] at h47
      subst h47
      exact t_symbolSlash hx hcs hh (pat_of hs0 hk)
  have hs := hs0.other h47
  by_cases h58 : r.headD EOF = 58
  · have h1 : symbolEnd P.env (r.headD EOF) x fld t =
        .ok { ctx := (({ x with selfDelim := x.quoted } : Ctx).setPending t).setQuoted false, res := .self } := by
      rw [h58]
      have : isSymTerm 58 = true := by decide
      simp [symbolEnd, this]
    rw [h1] at hh
    have h2 : (({ x with selfDelim := x.quoted } : Ctx).setPending t).setQuoted false = x.setPending t := by
      obtain ⟨a, b, c, d, e, f, g, h⟩ := hx
      cases x
      simp_all [Ctx.setPending, Ctx.setQuoted]
    rw [h2] at hh
    have h3 : Pend f as t ((x.setPending t).setType none) := hx.pend
    exact t_self hx.quoted hcs hh h3 (fun _ => hx.quoted) hx.selfDelim (fun _ => rfl) (pat_of (qu := false) hs0 hk)
  · have h1 : (Dead P fld f es ∨ Void P fld f as t es) ∨ (fld = false ∧ (P.ty = some .struct → f ≠ none) ∧ ∃ e es', es = e :: es' ∧ (dec f as).symbolEvent P.env.depth t = .ok e ∧
        (e.eventType ≠ .containerStart ∧ e.eventType.isStreamSignal = false) ∧ After F P r es') := by
      cases r with
      | nil => exact hk
      | cons c r => exact symK_other (by simpa using h58) hk
    have h5 : isSymTerm (r.headD EOF) = false := by
      cases r with
      | nil => decide
      | cons c r =>
        have := hs c r rfl
        simp only [followStart, Bool.and_eq_true, Bool.not_eq_true', decide_eq_true_eq] at this
        simp only [List.headD_cons] at h58 ⊢
        simp [isSymTerm, this, h58]
    obtain (hd | hd) | ⟨rfl, _, e, es', rfl, h2, h3, h4⟩ := h1
    · have h1 : symbolEnd P.env (r.headD EOF) x fld t =
          .ok { ctx := (({ x with selfDelim := x.quoted } : Ctx).setPending t).setQuoted false, res := .self } := by
        simp [symbolEnd, hd.fld]
      rw [h1] at hh
      have h2 : (({ x with selfDelim := x.quoted } : Ctx).setPending t).setQuoted false = x.setPending t := by
        obtain ⟨a, b, c, d, e, f, g, h⟩ := hx
        cases x
        simp_all [Ctx.setPending, Ctx.setQuoted]
      rw [h2] at hh
      exact t_self hx.quoted hcs hh hx.pend (fun _ => hx.quoted) hx.selfDelim (fun _ => rfl) (pat_of (qu := false) hs0 hk)
    · obtain ⟨h0, rfl, rfl, _, _, hev⟩ := hd
      have h6 : symbolEnd P.env (r.headD EOF) x false t = .error .ionException := by
        simp only [symbolEnd, h5, hx.quoted, Bool.or_false, Bool.false_eq_true, if_false]
        rw [symbolEvent_dec hx.fieldName hx.annotations, hev]
      rw [h6] at hh
      cases r with
      | nil => exact t_errNil h0 hx.quoted hcs hh
      | cons c r => exact t_err h0 hx.quoted hcs hh
    have h6 : symbolEnd P.env (r.headD EOF) x false t = .ok { ctx := x, res := .event e } := by
      simp only [symbolEnd, h5, hx.quoted, Bool.or_false, Bool.false_eq_true, if_false]
      rw [symbolEvent_dec hx.fieldName hx.annotations, h2]
    rw [h6] at hh
    exact t_end hx.quoted hcs hh hx.composite hx.selfDelim h3 (fun _ => rfl) h4

theorem pat_follow (hg : TextSpec.IsTrivia g) (hs : StartsOp P false r) (hk : SymR F P fld f as t r es) : PAt F P fld f as t false (g ++ r) es :=
  pat_trivia hg hk.1 (pat_of hs hk.2)

/-- The character ends an unquoted token: in an s-expression, an operator does too. -/
def Ender (P : Loc) (c : Nat) : Prop := c ∈ enders ∨ P.ty = some .sexp ∧ isOp c = true

omit [Fate] in
theorem isOp_lt {c : Nat} (hc : isOp c = true) : c < 128 := by
  simp only [isOp, Bool.or_eq_true, decide_eq_true_eq] at hc
  omega

omit [Fate] in
theorem Ender.facts {c : Nat} (hc : Ender P c) : isIdChar c = false ∧ c ≠ 95 ∧ (c = 58 ∨ (endsValue c || P.env.inSexp && isOp c) = true) ∧
    (isSymTerm c = (isWs c || c = 58 || c = 47)) := by
  rcases hc with hc | ⟨h1, hc⟩
  · obtain ⟨h1, _, _, h4, h5, h6, _⟩ := enders_facts _ hc
    exact ⟨h1, h4, h5.imp_right fun h => by simp [h], h6⟩
  · have key : ∀ c < 128, isOp c = true → isIdChar c = false ∧ c ≠ 95 ∧ (isSymTerm c = (isWs c || c = 58 || c = 47)) := by decide +kernel
    obtain ⟨k1, k2, k3⟩ := key c (isOp_lt hc) hc
    exact ⟨k1, k2, .inr (by simp [Env.inSexp, Loc.env, h1, hc]), k3⟩

omit [Fate] in
theorem endsToken_of {c : Nat} (hc : Ender P c) (prev : Nat) : endsToken P.env prev c = true := by
  obtain ⟨_, _, h, _⟩ := hc.facts
  rcases h with h | h
  · simp only [endsToken, h, decide_true, Bool.true_or, Bool.or_true]
  · simp only [Bool.or_eq_true] at h
    rcases h with h | h <;> simp only [endsToken, h, decide_true, Bool.true_or, Bool.or_true]

omit [Fate] in
theorem endsToken_slash (prev : Nat) : endsToken P.env prev 47 = true := endsToken_of (.inl (by decide)) prev

omit [Fate] in
theorem follow_notWs {qu : Bool} (hs : StartsOp P qu r) : isWs (r.headD EOF) = false := by
  cases r with
  | nil => decide
  | cons c r =>
    rcases hs c r rfl with this | ⟨rfl, _⟩
    · simp only [followStart, Bool.and_eq_true, Bool.not_eq_true'] at this
      exact this.1.1
    · rfl

/-- `_unquoted_symbol_handler` at the end of the symbol. -/
theorem t_unquotedEnd (hx : SymCtx f as x) {prev : Nat} (hf : Follow P g r) (hd : Ender P ((g ++ r).headD EOF)) (hk : SymR F P fld f as (.text x.value) r es) :
    T F P fld x (.unquoted fld prev) false true (g ++ r) es := by
  have key : ∀ (g : List Nat), TextSpec.IsTrivia g → ∀ (prev : Nat), (g = [] → endsToken P.env prev (r.headD EOF) = true) →
      T F P fld x (.unquoted fld prev) false true (g ++ r) es := by
    intro g hg
    induction hg with
    | nil =>
      intro prev he
      rw [List.nil_append]
      refine t_symbolEnd hx rfl hf.start ?_ hk.2
      simp only [handle, onUnquoted, follow_notWs hf.start, Bool.false_eq_true, if_false, he rfl, if_true]
    | space w g hw _ ih =>
      intro prev _
      have hw := isWs_of hw
      refine t_imm hx.quoted rfl ?_ (fun _ => by rw [hx.ionType]; rfl) (ih w fun hn => ?_)
      · simp only [handle, onUnquoted, hw, if_true]
      · simp [endsToken, hw]
    | comment cm g hc hg _ =>
      intro prev _
      have hp := pat_comment hc hk.1 (pat_follow hg hf.start hk)
      obtain ⟨m, rfl⟩ := comment_head hc
      rw [List.append_assoc]
      refine t_symbolSlash hx rfl ?_ hp
      simp only [handle, onUnquoted, show isWs 47 = false from rfl, endsToken_slash, Bool.false_eq_true, if_false, if_true]
  exact key g hf.triv prev fun hn => by subst hn; exact endsToken_of hd _

/-- `_unquoted_symbol_handler`. -/
theorem t_unquoted {cs : List Nat} (hcs : ∀ c ∈ cs, isIdChar c = true) (hf : Follow P g r) (hd : Ender P ((g ++ r).headD EOF)) :
    ∀ {x : Ctx} {prev : Nat}, SymCtx f as x → isIdChar prev = true → SymR F P fld f as (.text (x.value ++ cs)) r es →
    T F P fld x (.unquoted fld prev) false true (cs ++ (g ++ r)) es := by
  induction cs with
  | nil => intro x prev hx _ hk; rw [List.nil_append]; exact t_unquotedEnd hx hf hd (by simpa using hk)
  | cons c cs ih =>
    intro x prev hx hp hk
    have hc := hcs c (by simp)
    refine t_imm hx.quoted rfl ?_ (fun _ => by rw [(hx.push c).ionType]; rfl)
      (ih (fun d hd => hcs d (by simp [hd])) (hx.push c) hc (by simpa [Ctx.push] using hk))
    have h1 : isWs c = false ∧ endsToken P.env prev c = false := by
      obtain ⟨h2, h3, h4, h5, h6, h7⟩ := isIdChar_not hc
      have h8 := (isIdChar_not hp).1
      exact ⟨h2, by simp [endsToken, h8, h4, h5, h7]⟩
    simp only [handle, onUnquoted, h1.1, h1.2, hc, Bool.false_eq_true, if_false, if_true]

/-! ## Keywords -/

/-- The beginnings of the keywords. -/
def kwPre : List (List Nat) :=
  [[110], [110, 117], [110, 117, 108], [110, 117, 108, 108], [110, 97], [110, 97, 110], [116], [116, 114], [116, 114, 117], [116, 114, 117, 101],
    [102], [102, 97], [102, 97, 108], [102, 97, 108, 115], [102, 97, 108, 115, 101]]

/-- The state of `_symbol_or_keyword_handler` after the characters `p`. -/
def kwState (fld : Bool) (p : List Nat) : KwState :=
  { isField := fld, maybeNull := p.isPrefixOf [110, 117, 108, 108], maybeNan := p.isPrefixOf [110, 97, 110], maybeTrue := p.isPrefixOf [116, 114, 117, 101],
    maybeFalse := p.isPrefixOf [102, 97, 108, 115, 101], index := p.length - 1 }

omit [Fate] in
theorem kw_next {p : List Nat} (hp : p ∈ kwPre) (hc : isIdChar c = true) {v : Env} :
    (p ++ [c] ∈ kwPre ∧ onKeyword v (kwState fld p) x { code := c } = .ok { ctx := x.push c, res := .imm (.keyword (kwState fld (p ++ [c]))) }) ∨
    (p ++ [c] ∉ kwPre ∧ onKeyword v (kwState fld p) x { code := c } = andGo (mkUnquoted v c x fld)) := by
  obtain ⟨h1, h2, h3, h4, h5, h6⟩ := isIdChar_not hc
  simp only [kwPre, List.mem_cons, List.not_mem_nil, or_false] at hp
  rcases hp with rfl | rfl | rfl | rfl | rfl | rfl | rfl | rfl | rfl | rfl | rfl | rfl | rfl | rfl | rfl
  all_goals
    simp only [onKeyword, keywordChecks, checkKeyword, Kw.suffix, kwState, kwPre, notKeyword, List.isPrefixOf, h2, h3, h4, h5, h6, bind, Except.bind, pure, Except.pure]
    simp
  all_goals
    by_cases h117 : c = 117
    · subst h117; simp [List.isPrefixOf]
    by_cases h97 : c = 97
    · subst h97; simp [List.isPrefixOf]
    by_cases h108 : c = 108
    · subst h108; simp [List.isPrefixOf]
    by_cases h110 : c = 110
    · subst h110; simp [List.isPrefixOf]
    by_cases h114 : c = 114
    · subst h114; simp [List.isPrefixOf]
    by_cases h101 : c = 101
    · subst h101; simp [List.isPrefixOf]
    by_cases h115 : c = 115
    · subst h115; simp [List.isPrefixOf]
    simp [h117, h97, h108, h110, h114, h101, h115]

omit [Fate] in
/-- A symbol that is the beginning of a keyword. -/
theorem kw_end {p : List Nat} (hp : p ∈ kwPre) (hr : p ∉ TextSpec.reserved) (hc : Ender P c) :
    onKeyword P.env (kwState fld p) x { code := c } = notKeyword P.env fld x c := by
  have hid := hc.facts.1
  simp only [kwPre, List.mem_cons, List.not_mem_nil, or_false] at hp
  have hne : ∀ d, isIdChar d = true → c ≠ d := by
    rintro d hd rfl
    rw [hid] at hd
    cases hd
  rcases hp with rfl | rfl | rfl | rfl | rfl | rfl | rfl | rfl | rfl | rfl | rfl | rfl | rfl | rfl | rfl
  all_goals first | exact absurd (by decide) hr | skip
  all_goals
    simp only [onKeyword, keywordChecks, checkKeyword, Kw.suffix, kwState, List.isPrefixOf, bind, Except.bind, pure, Except.pure]
    simp [hne 117 rfl, hne 97 rfl, hne 108 rfl, hne 110 rfl, hne 114 rfl, hne 101 rfl, hne 115 rfl]

omit [Fate] in
theorem kw_none {p : List Nat} (hp : p ≠ []) (h : p ∉ kwPre) : kwState fld p = ⟨fld, false, false, false, false, p.length - 1⟩ := by
  simp only [kwState, KwState.mk.injEq, true_and, and_true]
  have key : ∀ k : List Nat, (∀ q, q ≠ [] → q <+: k → q ∈ kwPre) → p.isPrefixOf k = false := by
    intro k hk
    by_cases h1 : p.isPrefixOf k = true
    · exact absurd (hk p hp (List.isPrefixOf_iff_prefix.1 h1)) h
    · exact Bool.eq_false_iff.2 h1
  have hpre : ∀ (k q : List Nat), q <+: k → q ∈ (List.range (k.length + 1)).map (k.take ·) := by
    intro k q h
    rw [List.mem_map]
    exact ⟨q.length, by have := h.length_le; simp; omega, (List.prefix_iff_eq_take.1 h).symm⟩
  refine ⟨key _ ?_, key _ ?_, key _ ?_, key _ ?_⟩
  all_goals
    intro q hq hqk
    have := hpre _ _ hqk
    simp [List.range_succ] at this
    rcases this with rfl | this
    · exact absurd rfl hq
    · simp only [kwPre, List.mem_cons, List.not_mem_nil, or_false]
      grind

/-- `_symbol_or_keyword_handler` at the end of a symbol. -/
theorem t_notKeyword (hx : SymCtx f as x) (hcs : isCS h = false) (hf : Follow P g r) (hd : Ender P ((g ++ r).headD EOF)) (hfl : fld = true → isSymTerm ((g ++ r).headD EOF) = true)
    (hh : handle F P.env x h { code := (g ++ r).headD EOF } = notKeyword P.env fld x ((g ++ r).headD EOF)) (hk : SymR F P fld f as (.text x.value) r es) :
    T F P fld x h false true (g ++ r) es := by
  obtain ⟨h1, h6, h7, h8⟩ := hd.facts
  by_cases hst : isSymTerm ((g ++ r).headD EOF) = true
  · simp only [notKeyword, hst, if_true] at hh
    exact t_self hx.quoted hcs hh hx.pend (fun _ => hx.quoted) hx.selfDelim (fun _ => rfl) (pat_follow hf.triv hf.start hk)
  · have hst : isSymTerm ((g ++ r).headD EOF) = false := by simpa using hst
    rw [hst] at h8
    have h8 := h8.symm
    simp only [Bool.or_eq_false_iff, decide_eq_false_iff_not] at h8
    have hg : g = [] := by
      cases hf.triv with
      | nil => rfl
      | space w g hw _ =>
        rw [List.cons_append, List.headD_cons, isWs_of hw] at h8
        exact absurd h8.1.1 (by simp)
      | comment cm g hc _ =>
        obtain ⟨m, rfl⟩ := comment_head hc
        exact absurd rfl h8.2
    subst hg
    rw [List.nil_append] at *
    have hev : (endsValue (r.headD EOF) || P.env.inSexp && isOp (r.headD EOF)) = true := by
      rcases h7 with h7 | h7
      · exact absurd h7 h8.1.2
      · exact h7
    have hk2 : (Dead P fld f es ∨ Void P fld f as (.text x.value) es) ∨ (fld = false ∧ (P.ty = some .struct → f ≠ none) ∧ ∃ e es', es = e :: es' ∧ (dec f as).symbolEvent P.env.depth (.text x.value) = .ok e ∧
        (e.eventType ≠ .containerStart ∧ e.eventType.isStreamSignal = false) ∧ After F P r es') := by
      have hk := hk.2
      cases r with
      | nil => exact hk
      | cons c r => exact symK_other (by simpa using h8.1.2) hk
    obtain (hdd | hdd) | ⟨rfl, _, e, es', rfl, h10, h11, h12⟩ := hk2
    · rw [hfl hdd.fld] at hst
      cases hst
    · cases hdd.event
    simp only [notKeyword, hst, hev, if_true, Bool.false_eq_true, if_false] at hh
    rw [symbolEvent_dec hx.fieldName hx.annotations, h10] at hh
    exact t_end hx.quoted hcs hh hx.composite hx.selfDelim h11 (fun _ => rfl) h12

omit [Fate] in
theorem mkUnquoted_ok {v : Env} (hx : SymCtx f as x) (hc : isIdChar c = true) : mkUnquoted v c x fld = .ok (x.push c, .unquoted fld c) := by
  simp [mkUnquoted, Ctx.setUnicode, hx.isText, hx.quoted, hc]

/-- `_symbol_or_keyword_handler`. -/
theorem t_keyword {cs : List Nat} (hcs : ∀ c ∈ cs, isIdChar c = true) (hf : Follow P g r) (hd : Ender P ((g ++ r).headD EOF)) (hfl : fld = true → isSymTerm ((g ++ r).headD EOF) = true) :
    ∀ {x : Ctx}, SymCtx f as x → x.value ≠ [] → x.value ++ cs ∉ TextSpec.reserved → SymR F P fld f as (.text (x.value ++ cs)) r es →
    T F P fld x (.keyword (kwState fld x.value)) false true (cs ++ (g ++ r)) es := by
  induction cs with
  | nil =>
    intro x hx hne hres hk
    rw [List.append_nil] at hres hk
    rw [List.nil_append]
    refine t_notKeyword hx rfl hf hd hfl ?_ hk
    simp only [handle]
    by_cases hp : x.value ∈ kwPre
    · exact kw_end hp hres hd
    · rw [kw_none hne hp]
      rfl
  | cons c cs ih =>
    intro x hx hne hres hk
    have hc := hcs c (by simp)
    have hcs' : ∀ c ∈ cs, isIdChar c = true := fun d hd => hcs d (by simp [hd])
    have hval : (x.push c).value = x.value ++ [c] := rfl
    have hk' : SymR F P fld f as (.text ((x.push c).value ++ cs)) r es := by rw [hval]; simpa using hk
    have hun : onKeyword P.env (kwState fld x.value) x { code := c } = andGo (mkUnquoted P.env c x fld) →
        T F P fld x (.keyword (kwState fld x.value)) false true (c :: cs ++ (g ++ r)) es := by
      intro hh
      refine t_imm hx.quoted rfl ?_ (fun _ => by rw [(hx.push c).ionType]; rfl) (t_unquoted hcs' hf hd (hx.push c) hc hk')
      simp only [handle, hh, mkUnquoted_ok hx hc, andGo]
    by_cases hp : x.value ∈ kwPre
    · rcases kw_next hp hc (v := P.env) (fld := fld) (x := x) with ⟨h1, h2⟩ | ⟨h1, h2⟩
      · refine t_imm hx.quoted rfl ?_ (fun _ => by rw [(hx.push c).ionType]; rfl)
          (ih hcs' (hx.push c) (by rw [hval]; simp) (by rw [hval]; simpa using hres) hk')
        simp only [handle, h2, hval]
      · exact hun h2
    · refine hun ?_
      rw [kw_none hne hp]
      obtain ⟨h1, h2, h3, h4, h5, h6⟩ := isIdChar_not hc
      simp [onKeyword, keywordChecks, notKeyword, h2, h3, h4, bind, Except.bind, pure, Except.pure]

/-! ## Symbols that begin with a dollar sign -/

/-- Whether the remaining characters complete a version marker; see `ivmCheck`. -/
def ivmGo (index : Nat) (post complete : Bool) : List Nat → Bool
  | [] => complete
  | c :: cs =>
    if index = 5 then
      if isDigit c then ivmGo 5 post (complete || post) cs
      else if c = 95 ∧ ¬ post then ivmGo 5 true complete cs
      else false
    else if ivmPrefix[index]? = some c then ivmGo (index + 1) post complete cs else false

omit [Fate] in
theorem isDigit_iff {c : Nat} : isDigit c = true ↔ TextSpec.Digit c := by simp [isDigit, TextSpec.Digit]

omit [Fate] in
theorem ivmGo_post (cs : List Nat) (complete : Bool) : ivmGo 5 true complete cs = true ↔ (TextSpec.Digits cs ∧ (complete = true ∨ cs ≠ [])) := by
  induction cs generalizing complete with
  | nil => simp [ivmGo, TextSpec.Digits]
  | cons c cs ih =>
    simp only [ivmGo, if_true]
    by_cases hc : isDigit c = true
    · simp only [hc, if_true, ih, Bool.or_true]
      have := isDigit_iff.1 hc
      simp [TextSpec.Digits, this]
    · have : ¬ TextSpec.Digit c := fun h => hc (isDigit_iff.2 h)
      simp [hc, TextSpec.Digits, this]

omit [Fate] in
theorem ivmGo_pre (cs : List Nat) : ivmGo 5 false false cs = true ↔ ∃ a b, cs = a ++ 95 :: b ∧ TextSpec.Digits a ∧ TextSpec.Digits b ∧ b ≠ [] := by
  induction cs with
  | nil => simp [ivmGo]
  | cons c cs ih =>
    simp only [ivmGo, if_true]
    by_cases hc : isDigit c = true
    · simp only [hc, if_true, Bool.or_false, ih]
      have hd := isDigit_iff.1 hc
      constructor
      · rintro ⟨a, b, rfl, h1, h2, h3⟩
        refine ⟨c :: a, b, rfl, ?_, h2, h3⟩
        intro d hd'
        rcases List.mem_cons.1 hd' with rfl | h
        · exact hd
        · exact h1 d h
      · rintro ⟨a, b, h, h1, h2, h3⟩
        cases a with
        | nil =>
          simp only [List.nil_append, List.cons.injEq] at h
          exact absurd hd (by rw [h.1]; simp [TextSpec.Digit])
        | cons d a =>
          simp only [List.cons_append, List.cons.injEq] at h
          exact ⟨a, b, h.2, fun d hd => h1 d (by simp [hd]), h2, h3⟩
    · have hd : ¬ TextSpec.Digit c := fun h => hc (isDigit_iff.2 h)
      by_cases h95 : c = 95
      · subst h95
        simp only [hc, Bool.false_eq_true, if_false, not_false_eq_true, and_self, if_true, ivmGo_post, false_or]
        constructor
        · rintro ⟨h1, h2⟩
          exact ⟨[], cs, rfl, by simp [TextSpec.Digits], h1, h2⟩
        · rintro ⟨a, b, h, h1, h2, h3⟩
          cases a with
          | nil =>
            simp only [List.nil_append, List.cons.injEq, true_and] at h
            subst h
            exact ⟨h2, h3⟩
          | cons d a =>
            simp only [List.cons_append, List.cons.injEq] at h
            exact absurd (h1 d (by simp)) (by rw [← h.1]; exact hd)
      · simp only [hc, h95, Bool.false_eq_true, if_false, false_and, false_iff]
        rintro ⟨a, b, h, h1, h2, h3⟩
        cases a with
        | nil =>
          simp only [List.nil_append, List.cons.injEq] at h
          exact h95 h.1
        | cons d a =>
          simp only [List.cons_append, List.cons.injEq] at h
          exact absurd (h1 d (by simp)) (by rw [← h.1]; exact hd)

omit [Fate] in
theorem marker_iff (q : List Nat) : ivmGo 1 false false q = true ↔ TextSpec.IsMarkerText (36 :: q) := by
  have e : asc ['$', 'i', 'o', 'n', '_'] = [36, 105, 111, 110, 95] := rfl
  simp only [TextSpec.IsMarkerText, e, List.cons_append, List.nil_append, List.cons.injEq, true_and]
  rcases q with _ | ⟨c1, _ | ⟨c2, _ | ⟨c3, _ | ⟨c4, q⟩⟩⟩⟩
  all_goals simp [ivmGo, ivmPrefix]
  by_cases h1 : 105 = c1 <;> by_cases h2 : 111 = c2 <;> by_cases h3 : 110 = c3 <;> by_cases h4 : 95 = c4
  all_goals simp [h1, h2, h3, h4]
  all_goals first
    | (intros; omega)
    | (subst h1 h2 h3 h4; simp [ivmGo_pre])

/-- What the token denotes, when the characters `cs` are still to come. -/
def dTok (s : DollarState) (val cs : List Nat) : Tok :=
  if s.maybeIvm && ivmGo s.index s.post s.completeIvm cs then .ivm ⟨some (val ++ cs), none, none⟩
  else if s.maybeSid && cs.all isDigit && decide ((val ++ cs).length ≠ 1) then .sym ⟨none, some (digitsVal ((val ++ cs).drop 1)), none⟩
  else .text (val ++ cs)

/-- The states of `_symbol_identifier_or_unquoted_symbol_handler`. -/
structure DInv (fld : Bool) (s : DollarState) (val : List Nat) : Prop where
  isField : s.isField = fld
  prev : isIdChar s.prev = true
  index : s.index ≤ 5
  nonempty : val ≠ []
  noIvm : s.maybeIvm = false → s.completeIvm = false ∧ s.maybeSid = true
  both : s.maybeIvm = true → s.maybeSid = true → val.length = 1 ∧ s.index = 1
  complete : s.completeIvm = true → s.maybeSid = false ∧ val.length ≠ 1 ∧ s.index = 5

theorem t_dollarEnd (hx : SymCtx f as x) {s : DollarState} (hs : DInv fld s x.value) (hf : Follow P g r) (hd : Ender P ((g ++ r).headD EOF))
    (hk : SymR F P fld f as (dTok s x.value []) r es) : T F P fld x (.dollar s) false true (g ++ r) es := by
  have hde : ∀ (s' : DollarState) (c : Nat), s'.isField = fld → s'.completeIvm = s.completeIvm → s'.maybeSid = s.maybeSid → (s'.maybeIvm = true → s.maybeIvm = true) →
      dollarEnd P.env s' x c = symbolEnd P.env c x fld (dTok s x.value []) := by
    intro s' c e1 e2 e3 e4
    simp only [dollarEnd, dTok, List.append_nil, List.all_nil, Bool.and_true, e1, e2, e3, ivmGo]
    cases hc : s.completeIvm with
    | true =>
      obtain ⟨h1, h2, _⟩ := hs.complete hc
      have h3 : s.maybeIvm = true := by
        cases hm : s.maybeIvm with
        | true => rfl
        | false => have := (hs.noIvm hm).1; rw [hc] at this; cases this
      simp [h1, h2, h3]
    | false =>
      simp only [Bool.and_false, Bool.false_eq_true, if_false]
      by_cases h1 : x.value.length = 1
      · simp [h1]
      · cases hsid : s.maybeSid with
        | false => simp [h1]
        | true =>
          have h2 : s'.maybeIvm = false := by
            cases hm : s'.maybeIvm with
            | false => rfl
            | true => exact absurd (hs.both (e4 hm) hsid).1 h1
          simp [h1, h2]
  have key : ∀ (g : List Nat), TextSpec.IsTrivia g → ∀ (s' : DollarState), s'.isField = fld → s'.completeIvm = s.completeIvm → s'.maybeSid = s.maybeSid →
      (s'.maybeIvm = true → s.maybeIvm = true) → (g = [] → endsToken P.env s'.prev (r.headD EOF) = true) →
      T F P fld x (.dollar s') false true (g ++ r) es := by
    intro g hg
    induction hg with
    | nil =>
      intro s' e1 e2 e3 e4 he
      rw [List.nil_append]
      refine t_symbolEnd hx rfl hf.start ?_ hk.2
      simp only [handle, onDollar, follow_notWs hf.start, Bool.false_eq_true, if_false, he rfl, if_true, hde s' _ e1 e2 e3 e4]
    | space w g hw _ ih =>
      intro s' e1 e2 e3 e4 _
      have hw := isWs_of hw
      refine t_imm hx.quoted rfl ?_ (fun _ => by rw [hx.ionType]; rfl)
        (ih { s' with prev := w, maybeIvm := s'.maybeIvm && !(decide (s'.index < 5)) } e1 e2 e3 (fun h => e4 ?_) fun hn => ?_)
      · simp only [handle, onDollar, hw, if_true]
      · simp only [Bool.and_eq_true] at h
        exact h.1
      · simp [endsToken, hw]
    | comment cm g hc hg _ =>
      intro s' e1 e2 e3 e4 _
      have hp := pat_comment hc hk.1 (pat_follow hg hf.start hk)
      obtain ⟨m, rfl⟩ := comment_head hc
      rw [List.append_assoc]
      refine t_symbolSlash hx rfl ?_ hp
      simp only [handle, onDollar, show isWs 47 = false from rfl, endsToken_slash, Bool.false_eq_true, if_false, if_true, hde s' _ e1 e2 e3 e4]
  exact key g hf.triv s hs.isField rfl rfl id fun hn => by subst hn; exact endsToken_of hd _

theorem t_dollar {cs : List Nat} (hcs : ∀ c ∈ cs, isIdChar c = true) (hf : Follow P g r) (hd : Ender P ((g ++ r).headD EOF)) :
    ∀ {x : Ctx} {s : DollarState}, SymCtx f as x → DInv fld s x.value → SymR F P fld f as (dTok s x.value cs) r es →
    T F P fld x (.dollar s) false true (cs ++ (g ++ r)) es := by
  induction cs with
  | nil => intro x s hx hs hk; rw [List.nil_append]; exact t_dollarEnd hx hs hf hd hk
  | cons c cs ih =>
    intro x s hx hs hk
    have hc := hcs c (by simp)
    have hcs' : ∀ c ∈ cs, isIdChar c = true := fun d hd => hcs d (by simp [hd])
    have hval : (x.push c).value = x.value ++ [c] := rfl
    have hlen : (x.value ++ [c]).length ≠ 1 := by
      have := hs.nonempty
      cases hv : x.value with
      | nil => exact absurd hv this
      | cons a b => simp
    have hne : x.value ++ [c] ≠ [] := by simp
    obtain ⟨h2, h3, h4, h5, h6, h7⟩ := isIdChar_not hc
    have h8 := (isIdChar_not hs.prev).1
    have het : endsToken P.env s.prev c = false := by simp [endsToken, h8, h4, h5, h7]
    by_cases hr : (ivmCheck s c).1 = true
    · -- the token may still be a version marker
      have hm : s.maybeIvm = true := by
        cases hm : s.maybeIvm with
        | true => rfl
        | false => simp [ivmCheck, hm] at hr
      refine t_imm hx.quoted rfl ?_ (fun _ => by rw [(hx.push c).ionType]; rfl)
        (ih hcs' (s := { s with prev := c, maybeSid := s.maybeSid && isDigit c, maybeIvm := true, completeIvm := (ivmCheck s c).2.1, post := (ivmCheck s c).2.2, index := if s.index < 5 then s.index + 1 else s.index }) (hx.push c) ?_ ?_)
      · simp only [handle, onDollar, h2, het, hr, Bool.false_eq_true, if_false, if_true]
      · have hsid : (s.maybeSid && isDigit c) = false := by
          by_cases hsid : s.maybeSid = true
          · have h9 := (hs.both hm hsid).2
            simp only [ivmCheck, hm, h9, if_true, ivmPrefix, Nat.one_ne_zero, show (1 : Nat) ≠ 5 from by decide, if_false] at hr
            simp at hr
            subst hr
            simp [isDigit]
          · simp [hsid]
        refine ⟨hs.isField, hc, ?_, hne, by simp, ?_, ?_⟩
        · simp only; have := hs.index; split <;> omega
        · intro _ h; rw [hsid] at h; cases h
        · intro h
          refine ⟨hsid, by rw [hval]; exact hlen, ?_⟩
          simp only [ivmCheck, hm, if_true] at h
          by_cases h9 : s.index = 5
          · simp [h9]
          · simp only [h9, if_false] at h
            exact absurd (hs.complete h).2.2 h9
      · refine (congrArg (fun t => SymR F P fld f as t r es) ?_).mp hk
        simp only [dTok, hval, hm, Bool.true_and, List.append_assoc, List.singleton_append, List.all_cons, Bool.and_assoc]
        have : ivmGo s.index s.post s.completeIvm (c :: cs) =
            ivmGo (if s.index < 5 then s.index + 1 else s.index) (ivmCheck s c).2.2 (ivmCheck s c).2.1 cs := by
          simp only [ivmCheck, hm, if_true] at hr ⊢
          by_cases h9 : s.index = 5
          · simp only [h9, if_true] at hr ⊢
            by_cases h10 : isDigit c = true
            · simp [ivmGo, h10]
            · by_cases h11 : c = 95 ∧ ¬ s.post = true
              · obtain ⟨rfl, h12⟩ := h11
                have h12 : s.post = false := by simpa using h12
                simp [ivmGo, h10, h12]
              · simp only [h10, if_neg h11, if_false, Bool.false_eq_true] at hr
          · simp only [h9, if_false, decide_eq_true_eq] at hr ⊢
            have h12 : s.index < 5 := by have := hs.index; omega
            simp [ivmGo, h9, hr, h12]
        rw [this]
    · have hr : (ivmCheck s c).1 = false := by simpa using hr
      have hgo : (s.maybeIvm && ivmGo s.index s.post s.completeIvm (c :: cs)) = false := by
        cases hm : s.maybeIvm with
        | false => rfl
        | true =>
          simp only [ivmCheck, hm, if_true] at hr
          simp only [Bool.true_and, ivmGo]
          by_cases h9 : s.index = 5
          · simp only [h9, if_true] at hr ⊢
            by_cases h10 : isDigit c = true
            · simp [h10] at hr
            · by_cases h11 : c = 95 ∧ ¬ s.post = true
              · obtain ⟨rfl, h12⟩ := h11
                have h12 : s.post = false := by simpa using h12
                simp [h10, h12] at hr
              · simp only [h10, if_neg h11, if_false, Bool.false_eq_true]
          · simp only [h9, if_false, decide_eq_false_iff_not] at hr ⊢
            rw [if_neg hr]
      by_cases hsid : (s.maybeSid && isDigit c) = true
      · refine t_imm hx.quoted rfl ?_ (fun _ => by rw [(hx.push c).ionType]; rfl)
          (ih hcs' (s := { s with prev := c, maybeSid := s.maybeSid && isDigit c, maybeIvm := false, completeIvm := (ivmCheck s c).2.1, post := (ivmCheck s c).2.2 }) (hx.push c) ?_ ?_)
        · simp only [handle, onDollar, h2, het, hr, hsid, Bool.false_eq_true, if_false, Bool.not_true]
        · have hcomp : (ivmCheck s c).2.1 = false := by
            have hs1 : s.maybeSid = true := by simp only [Bool.and_eq_true] at hsid; exact hsid.1
            have hc1 : s.completeIvm = false := by
              cases hc1 : s.completeIvm with
              | false => rfl
              | true => have := (hs.complete hc1).1; rw [hs1] at this; cases this
            cases hm : s.maybeIvm with
            | false => simp [ivmCheck, hm, hc1]
            | true =>
              have h9 := (hs.both hm hs1).2
              simp [ivmCheck, hm, h9, hc1]
          refine ⟨hs.isField, hc, hs.index, hne, fun _ => ⟨hcomp, hsid⟩, by simp, ?_⟩
          intro h
          rw [hcomp] at h; cases h
        · refine (congrArg (fun t => SymR F P fld f as t r es) ?_).mp hk
          simp only [Bool.and_eq_true] at hsid
          simp only [dTok, hval, hgo, Bool.false_and, Bool.false_eq_true, if_false, hsid.1, hsid.2, List.all_cons, Bool.true_and, List.append_assoc, List.singleton_append]
      · have hsid : (s.maybeSid && isDigit c) = false := by simpa using hsid
        refine t_imm hx.quoted rfl ?_ (fun _ => by rw [(hx.push c).ionType]; rfl) (t_unquoted hcs' hf hd (hx.push c) hc ?_)
        · simp only [handle, onDollar, h2, het, hr, hsid, Bool.false_eq_true, if_false, Bool.not_false, if_true, mkUnquoted_ok hx hc, andGo, hs.isField]
        · refine (congrArg (fun t => SymR F P fld f as t r es) ?_).mp hk
          simp only [dTok, hgo, Bool.false_eq_true, if_false, hval, List.append_assoc, List.singleton_append, List.all_cons]
          have : (s.maybeSid && (isDigit c && cs.all isDigit)) = false := by rw [← Bool.and_assoc, hsid]; rfl
          simp [this]

/-! ## Quoted symbols -/

/-- The context while a quoted symbol is read. -/
def qctx (f : Option SymbolToken) (as : List SymbolToken) (v : List Nat) : Ctx :=
  { fieldName := f, annotations := as, value := v, isText := true, quoted := true }

omit [Fate] in
theorem isChar_le {qc : Nat} {clob : Bool} {bs : List Nat} {v : Nat} (hc : TextSpec.IsChar qc clob bs v) : v ≤ 0x10FFFF := by
  cases hc with
  | plain _ _ h _ _ _ => exact h.1
  | escape e _ h =>
    simp only [TextSpec.escapes, List.mem_cons, Prod.mk.injEq, List.not_mem_nil, or_false] at h
    omega
  | hex2 ds _ h => have := hexNum_lt h; omega
  | hex4 ds _ _ _ h => exact h.1
  | hex8 ds _ _ _ h => exact h.1
  | pair => omega

theorem t_quotedSymbol {bs : List Nat} {tx : Text} (hb : TextSpec.IsChars 39 false bs tx) (hf : Follow P g r) :
    ∀ {v : List Nat} {q : Bool}, SymR F P fld f as (.text (v ++ tx)) r es → T F P fld (qctx f as v) (.quotedSymbol fld) q b (bs ++ 39 :: (g ++ r)) es := by
  induction hb generalizing b with
  | nil =>
    intro v q hk
    rw [List.append_nil] at hk
    have hp : Pend f as (.text v) (((({ qctx f as v with selfDelim := true } : Ctx).setPending (.text v)).setQuoted false).setType none) := by
      simp only [Ctx.setPending, Ctx.setQuoted, Ctx.setType, qctx]
      constructor <;> rfl
    refine t_selfQ (.inr rfl) (x' := (({ qctx f as v with selfDelim := true } : Ctx).setPending (.text v)).setQuoted false) rfl rfl ?_ hp rfl rfl rfl
      (pat_follow hf.triv hf.start hk)
    simp [handle, onQuotedSymbol, symbolEnd, qctx]
  | cons cb rest c t hc _ ih =>
    intro v q hk
    rw [List.append_assoc]
    refine t_char (x' := qctx f as (v ++ [c])) (h' := .quotedSymbol fld) rfl rfl hc (fun esc hesc => ?_) (ih (by simpa using hk))
    have h1 : ¬ (c = 39 ∧ ¬ esc = true) := by
      rintro ⟨h1, h2⟩
      exact (hesc (by simpa using h2)).1 h1
    have h2 : badQuoted false false { code := c, esc := esc } = false := by
      have := isChar_le hc
      cases esc with
      | true => simp [badQuoted]
      | false =>
        have := rawOk_not (hesc rfl).2.1 (by assumption)
        simpa [badQuoted] using this
    simp only [handle, onQuotedSymbol, if_neg h1, h2, Bool.false_eq_true, if_false]
    simp [Ctx.extend, qctx]
  | continued nl rest t hb hrest ih =>
    intro v q hk
    obtain ⟨h1, h2⟩ := chars_rest (.inr rfl) hrest (g ++ r)
    rw [List.cons_append, List.append_assoc]
    refine t_continued (x' := qctx f as v) (h' := .quotedSymbol fld) rfl rfl (h2 nl hb) h1 (by simp) ?_ (ih hk)
    simp [handle, onQuotedSymbol, badQuoted, isNewline, Ctx.extend, qctx]

theorem t_quote1 {bs : List Nat} {tx : Text} (hb : TextSpec.IsChars 39 false bs tx) (hf : Follow P g r)
    (he : bs = [] → TextSpec.IsBlank g ∧ (g ++ r).headD EOF ≠ 39 ∧ r.headD 0 ≠ 47) (hk : SymR F P fld f as (.text tx) r es) :
    T F P fld (dec f as) (.quote1 fld) true true (bs ++ 39 :: (g ++ r)) es := by
  cases hb with
  | nil =>
    refine t_quoteImm (x' := (dec f as).setType (some .symbol)) (h' := .quote2 fld) (b' := true) (.inr rfl) rfl rfl ?_ (fun _ => rfl) ?_
    · simp [handle]
    · have hp : Pend f as (.text []) ((({ qctx f as [] with ionType := some .symbol } : Ctx).setPending (.text [])).setType none) := by
        simp only [Ctx.setPending, Ctx.setQuoted, Ctx.setType, qctx]
        constructor <;> rfl
      refine t_self (x' := ({ qctx f as [] with ionType := some .symbol } : Ctx).setPending (.text [])) rfl rfl ?_ hp (qu := true) (by simp) rfl (fun _ => rfl)
        (pat_blank (fun c hc => isWs_of ((he rfl).1 c hc)) (pat_of (startsOp_of (hf.start.other (he rfl).2.2)) hk.2))
      have hne : (g ++ r).headD EOF ≠ 39 := (he rfl).2.1
      simp only [handle, hne, false_and, if_false]
      rfl
  | cons cb rest c t hc hrest =>
    rw [List.append_assoc]
    refine t_char (x' := qctx f as [c]) (h' := .quotedSymbol fld) rfl rfl hc (fun esc hesc => ?_) (t_quotedSymbol hrest hf (by simpa using hk))
    have h1 : ¬ (c = 39 ∧ ¬ esc = true) := by
      rintro ⟨h1, h2⟩
      exact (hesc (by simpa using h2)).1 h1
    have hle := isChar_le hc
    have h2 : c ≠ EOF := by simp only [EOF]; omega
    have h3 : (!isWsNotNl c && !esc && (decide (c < 0x20) || decide (c > 0x10FFFF))) = false := by
      cases esc with
      | true => simp
      | false =>
        have := rawOk_not (hesc rfl).2.1 hle
        simpa using this
    have h4 : (dec f as).setUnicode true = .ok (qctx f as []) := rfl
    have h5 : (qctx f as []).setUnicode true = .ok (qctx f as []) := rfl
    simp only [handle, if_neg h1, h4, mkQuotedSymbol, h5, h2, if_false, h3, Bool.false_eq_true]
    simp [andGo, qctx, Ctx.push]
  | continued nl rest t hb hrest =>
    obtain ⟨h1, h2⟩ := chars_rest (.inr rfl) hrest (g ++ r)
    rw [List.cons_append, List.append_assoc]
    refine t_continued (x' := qctx f as []) (h' := .quotedSymbol fld) rfl rfl (h2 nl hb) h1 (by simp) ?_ (t_quotedSymbol hrest hf (by simpa using hk))
    rfl

/-! ## Symbols -/

/-- The token of a symbol, unless it is a version marker. -/
def plainTok : TextSpec.TSym → Tok
  | .text t => .text t
  | .sid n => .sym ⟨none, some n, none⟩

/-- The token of a symbol; `elig`: at a place where version markers are recognised. -/
def IsTok (elig : Bool) (s : List Nat) (a : TextSpec.TSym) (t : Tok) : Prop :=
  (¬ (elig = true ∧ TextSpec.IsMarkerText s) ∧ t = plainTok a) ∨ (elig = true ∧ TextSpec.IsMarkerText s ∧ t = .ivm ⟨some s, none, none⟩ ∧ a = .text s)

omit [Fate] in
theorem isTok_regular {elig : Bool} {s : List Nat} {a : TextSpec.TSym} (h : IsTok elig s a t) : t.regular = a.token := by
  rcases h with ⟨_, rfl⟩ | ⟨_, _, rfl, rfl⟩
  · cases a <;> rfl
  · rfl

omit [Fate] in
theorem plain_of_idStart {c : Nat} (hc : isIdStart c = true ∨ c = 36 ∨ c = 39) (P : Loc) : plainStart P c = true := by
  have key : ∀ c < 128, isIdStart c = true ∨ c = 36 ∨ c = 39 → isWs c = false ∧ c ≠ 44 ∧ c ≠ 47 ∧ c ≠ 125 ∧ c ≠ 93 ∧ c ≠ 41 := by decide +kernel
  have hlt : c < 128 := by
    simp only [isIdStart, isLetter, Bool.or_eq_true, Bool.and_eq_true, decide_eq_true_eq] at hc
    omega
  obtain ⟨h1, h2, h3, h4, h5, h6⟩ := key c hlt hc
  have h7 : c ≠ EOF := by simp only [EOF]; omega
  have h8 : isEnd P.ty c = false := by
    rcases P with ⟨o, _ | t⟩
    · rfl
    · cases t <;> simp [isEnd, h4, h5, h6]
  simp [plainStart, h1, h2, h3, h7, h8]

omit [Fate] in
theorem symCtx_start (v : List Nat) : SymCtx f as { dec f as with value := v, isText := true, ionType := some .symbol } := by
  constructor <;> rfl

/-- A symbol, at the beginning of a value or of a field. -/
theorem at_sym {s : List Nat} {a : TextSpec.TSym} (hs : TextSpec.IsSym s a) (hf : Follow P g r) (hd : [39] <:+ s ∨ Ender P ((g ++ r).headD EOF))
    (he : s = [39, 39] → TextSpec.IsBlank g ∧ (g ++ r).headD EOF ≠ 39 ∧ r.headD 0 ≠ 47) {cm : Bool} (hfl : fld = true → [39] <:+ s ∨ isSymTerm ((g ++ r).headD EOF) = true) (hk : ∀ t, IsTok (decide (P.outer.length = 0) && !fld && as.isEmpty) s a t → SymR F P fld f as t r es) :
    At F P fld false (childOf f as) cm (s ++ (g ++ r)) es := by
  have hd' : (∀ c ∈ s, isIdChar c = true) → Ender P ((g ++ r).headD EOF) := by
    intro hs
    rcases hd with hd | hd
    · exact absurd (hs 39 (hd.subset (by simp))) (by decide)
    · exact hd
  have hdollar : ∀ (cs : List Nat), s = 36 :: cs → (∀ c ∈ cs, isIdChar c = true) →
      SymR F P fld f as (dTok { isField := fld, maybeIvm := decide (P.outer.length = 0) && !fld && as.isEmpty } [36] cs) r es →
      At F P fld false (childOf f as) cm (36 :: cs ++ (g ++ r)) es := by
    intro cs hse hcs hk
    have hd : Ender P ((g ++ r).headD EOF) := by
      refine hd' fun c hc => ?_
      rw [hse] at hc
      rcases List.mem_cons.1 hc with rfl | hc
      · decide
      · exact hcs c hc
    refine at_start (x := { dec f as with value := [36], isText := true, ionType := some .symbol })
      (h := .dollar { isField := fld, maybeIvm := decide (P.outer.length = 0) && !fld && as.isEmpty }) (plain_of_idStart (.inr (.inl rfl)) P) ?_ ?_
    · cases fld <;> simp [fieldTable, valueTable, mkDollar, Ctx.setUnicode, dec, Ctx.setType, Ctx.push, Loc.env]
    · refine t_dollar hcs hf hd (symCtx_start _) ⟨rfl, (by decide : isIdChar 36 = true), (by decide : 1 ≤ 5), by simp, fun _ => ⟨rfl, rfl⟩, fun _ _ => ⟨rfl, rfl⟩, by simp⟩ hk
  cases hs with
  | ident t hid hres hsid =>
    cases s with
    | nil => exact absurd hid (by simp [TextSpec.IsIdent])
    | cons c cs =>
      have hcs : ∀ d ∈ cs, isIdChar d = true := by
        intro d hd
        have := hid.2 d hd
        simp only [TextSpec.IdentStart, TextSpec.Digit] at this
        simp only [isIdChar, isIdStart, isLetter, isDigit, Bool.or_eq_true, Bool.and_eq_true, decide_eq_true_eq]
        omega
      by_cases h36 : c = 36
      · subst h36
        refine hdollar cs rfl hcs (hk _ ?_)
        simp only [dTok, List.singleton_append, marker_iff, Bool.true_and]
        by_cases hel : (decide (P.outer.length = 0) && !fld && as.isEmpty) = true
        · simp only [hel, Bool.true_and]
          by_cases hm : ivmGo 1 false false cs = true
          · rw [if_pos hm]
            exact .inr ⟨rfl, (marker_iff cs).1 hm, rfl, rfl⟩
          · rw [if_neg hm]
            refine .inl ⟨fun h => hm ((marker_iff cs).2 h.2), ?_⟩
            have : ¬ ((cs.all isDigit && decide ((36 :: cs).length ≠ 1)) = true) := by
              intro h
              simp only [Bool.and_eq_true, List.all_eq_true, decide_eq_true_eq] at h
              refine hsid ⟨cs, rfl, ?_, fun d hd => isDigit_iff.1 (h.1 d hd)⟩
              rintro rfl
              exact h.2 rfl
            rw [if_neg this]
            rfl
        · have hel : (decide (P.outer.length = 0) && !fld && as.isEmpty) = false := by simpa using hel
          simp only [hel, Bool.false_and, Bool.false_eq_true, if_false]
          refine .inl ⟨by simp, ?_⟩
          have : ¬ ((cs.all isDigit && decide ((36 :: cs).length ≠ 1)) = true) := by
            intro h
            simp only [Bool.and_eq_true, List.all_eq_true, decide_eq_true_eq] at h
            refine hsid ⟨cs, rfl, ?_, fun d hd => isDigit_iff.1 (h.1 d hd)⟩
            rintro rfl
            exact h.2 rfl
          rw [if_neg this]
          rfl
      · have hst : isIdStart c = true := by
          have := hid.1
          simp only [TextSpec.IdentStart] at this
          simp only [isIdStart, isLetter, Bool.or_eq_true, Bool.and_eq_true, decide_eq_true_eq]
          omega
        have hd : Ender P ((g ++ r).headD EOF) := by
          refine hd' fun d hd => ?_
          rcases List.mem_cons.1 hd with rfl | hd
          · simp [isIdChar, hst]
          · exact hcs d hd
        have hnm : ¬ TextSpec.IsMarkerText (c :: cs) := by
          rintro ⟨a, b, h, _⟩
          simp only [asc, List.map_cons, List.cons_append, List.cons.injEq] at h
          exact h36 h.1
        have hc2 : c ≠ 45 ∧ c ≠ 43 ∧ c ≠ 48 ∧ c ≠ 123 ∧ c ≠ 40 ∧ c ≠ 91 ∧ c ≠ 39 ∧ c ≠ 34 ∧ isDigit c = false := by
          simp only [isIdStart, isLetter, Bool.or_eq_true, Bool.and_eq_true, decide_eq_true_eq] at hst
          simp [isDigit]
          omega
        obtain ⟨n1, n2, n3, n4, n5, n6, n7, n8, n9⟩ := hc2
        have hkw : mkKeyword P.env c (dec f as) fld = .ok ({ dec f as with value := [c], isText := true, ionType := some .symbol }, .keyword (kwState fld [c])) := by
          simp only [mkKeyword, hst, if_true, dec, ne_eq, not_true_eq_false, if_false, Ctx.setUnicode, Bool.false_eq_true, Ctx.setType, reduceCtorEq, Ctx.push, List.nil_append]
          have b1 : (c == 110) = decide (c = 110) := by by_cases h : c = 110 <;> simp [h]
          have b2 : (c == 116) = decide (c = 116) := by by_cases h : c = 116 <;> simp [h]
          have b3 : (c == 102) = decide (c = 102) := by by_cases h : c = 102 <;> simp [h]
          simp [kwState, List.isPrefixOf, b1, b2, b3]
        refine at_start (x := { dec f as with value := [c], isText := true, ionType := some .symbol }) (h := .keyword (kwState fld [c]))
          (plain_of_idStart (.inl hst) P) ?_ ?_
        · cases fld with
          | true => simp [fieldTable, n7, n8, h36, hst, hkw]
          | false => simp [valueTable, n1, n2, n3, n4, n5, n6, n7, n8, n9, h36, hkw]
        · simp only [n7, n8, decide_false, Bool.or_self]
          exact t_keyword (x := { dec f as with value := [c], isText := true, ionType := some .symbol }) hcs hf hd
            (fun h1 => (hfl h1).resolve_left fun h2 => by
              have h3 : isIdChar 39 = true := by
                rcases List.mem_cons.1 (h2.subset (List.mem_singleton_self 39)) with h3 | h3
                · exact absurd h3.symm n7
                · exact hcs 39 h3
              exact absurd h3 (by decide)) (symCtx_start _) (by simp) (by simpa using hres)
            (hk _ (.inl ⟨fun h => hnm h.2, rfl⟩))
  | sid ds hne hds =>
    have hdd : ∀ c ∈ ds, isDigit c = true := fun c hc => isDigit_iff.2 (hds c hc)
    have hcs : ∀ c ∈ ds, isIdChar c = true := fun c hc => by simp [isIdChar, hdd c hc]
    have hnm : ivmGo 1 false false ds = false := by
      cases ds with
      | nil => rfl
      | cons d ds =>
        have : d ≠ 105 := by
          have := hds d (by simp)
          simp only [TextSpec.Digit] at this
          omega
        simp [ivmGo, ivmPrefix, this, eq_comm]
    refine hdollar ds rfl hcs (hk _ (.inl ⟨fun h => ?_, ?_⟩))
    · have := (marker_iff ds).2 h.2
      rw [hnm] at this; cases this
    · have h1 : ds.all isDigit = true := List.all_eq_true.2 hdd
      have h2 : (36 :: ds).length ≠ 1 := by
        cases ds with
        | nil => exact absurd rfl hne
        | cons d ds => simp
      simp only [dTok, hnm, Bool.and_false, Bool.false_eq_true, if_false, h1, List.singleton_append, h2, ne_eq, not_false_eq_true, decide_true, Bool.and_self, if_true]
      rfl
  | quoted bs tx hb =>
    have hnm : ¬ TextSpec.IsMarkerText (39 :: (bs ++ [39])) := by
      rintro ⟨a, b, h, _⟩
      simp only [asc, List.map_cons, List.cons_append, List.cons.injEq] at h
      exact absurd h.1 (by decide)
    rw [List.cons_append, List.append_assoc, List.singleton_append]
    refine at_start (x := dec f as) (h := .quote1 fld) (plain_of_idStart (.inr (.inr rfl)) P) ?_ (t_quote1 hb hf (fun hn => he (by rw [hn]; rfl)) (hk _ (.inl ⟨fun h => hnm h.2, rfl⟩)))
    cases fld <;> simp [fieldTable, valueTable]
end

end Ion.TextReader
