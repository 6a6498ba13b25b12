import Verif.TextSafeRun
import Verif.TextRun
set_option linter.unusedSimpArgs false
/-!
# What the text reader gives back it has read last

The container generator and its handlers give characters back to the queue.  For the texts of `Fine`, what is given back is what was
read last (`ok_next`).
-/
namespace Ion.TextReader.Whole
open Ion Ion.Queue Ion.TextReader Ion.TextReader.Calm

/-- A character that is not delivered as it is within quotes: a carriage return, a backslash, a high surrogate. -/
def Sharp (c : Nat) : Prop := c = 13 ∨ c = 92 ∨ isHighSurrogate c

/-- No slash is followed by such a character, but for the end of a block comment (a star comes before the slash, and no quote before the star) and
for the second slash of a line comment that comes first or after white space. -/
def Fine (t : List Nat) : Prop := ∀ u c w, t = u ++ 47 :: c :: w → Sharp c →
  (∃ u' a, u = u' ++ [a, 42] ∧ a ≠ 39) ∨ u = [47] ∨ ∃ u' a, u = u' ++ [a, 47] ∧ isWs a = true

/-- The text does not go on with a sharp character. -/
def NoSharp (l : List Nat) : Prop := ∀ c w, l = c :: w → ¬ Sharp c

/-- If a slash follows, no sharp character follows it. -/
def Lead (p : List Nat) : Prop := ∀ l, Fine (p.reverse ++ 47 :: l) → NoSharp l

theorem lead_nil : Lead [] := by
  rintro l hf c w rfl hs
  rcases hf [] c w rfl hs with ⟨u', a, h, _⟩ | h | ⟨u', a, h, _⟩
  · simp at h
  · simp at h
  · simp at h

theorem lead_cons {a : Nat} {p : List Nat} (h1 : a ≠ 42) (h2 : a ≠ 47) : Lead (a :: p) := by
  rintro l hf c w rfl hs
  rcases hf (a :: p).reverse c w rfl hs with ⟨u', b, h, _⟩ | h | ⟨u', b, h, _⟩
  all_goals (have h := congrArg List.reverse h; simp at h)
  · exact h1 h.1
  · exact h2 h.1
  · exact h2 h.1

theorem lead_two {a b : Nat} {p : List Nat} (h1 : a ≠ 42 ∨ b = 39) (h2 : isWs b = false) : Lead (a :: b :: p) := by
  rintro l hf c w rfl hs
  rcases hf (a :: b :: p).reverse c w rfl hs with ⟨u', b', h, hb⟩ | h | ⟨u', b', h, hb⟩
  all_goals (have h := congrArg List.reverse h; simp at h)
  · rcases h1 with h1 | h1
    · exact h1 h.1
    · exact hb (h.2.1 ▸ h1)
  · rw [h.2.1] at h2; rw [h2] at hb; cases hb

theorem lead_slash {l p : List Nat} (h : Lead p) (hf : Fine ((47 :: p).reverse ++ l)) : NoSharp l := h l (by simpa using hf)

theorem fine_read {c : Nat} {p l : List Nat} (h : Fine (p.reverse ++ c :: l)) : Fine ((c :: p).reverse ++ l) := by simpa using h

theorem fine_unread {c : Nat} {p l : List Nat} (h : Fine ((c :: p).reverse ++ l)) : Fine (p.reverse ++ c :: l) := by simpa using h

theorem fine_eof {p : List Nat} (h : Fine (p.reverse ++ [])) : Fine ((EOF :: p).reverse ++ []) := by
  intro u c w ht hs
  rw [List.append_nil, List.reverse_cons] at ht
  rw [List.append_nil] at h
  rcases List.eq_nil_or_concat w with rfl | ⟨w', b, rfl⟩
  · have ht : p.reverse ++ [EOF] = (u ++ [47]) ++ [c] := by simpa using ht
    have := List.append_inj_right' ht rfl
    simp only [List.cons.injEq, and_true] at this
    subst this
    exfalso
    rcases hs with hs | hs | hs <;> exact absurd hs (by decide)
  · have ht : p.reverse ++ [EOF] = (u ++ 47 :: c :: w') ++ [b] := by simpa using ht
    exact h u c w' (List.append_inj_left' ht rfl) hs

theorem noSharp_nil : NoSharp [] := by rintro c w ⟨⟩

/-- Handlers that may be active while text is quoted. -/
def mayQuote : H → Bool
  | .shortString | .shortField | .shortClob | .quotedSymbol _ | .long _ _ _ _ _ | .longSymbol _ | .sexpSlash _ _ | .comment _ | .commentBody _ _ _ | .lobStart _ | .blobEnd _ _ _ => true
  | _ => false

/-- Handlers that a token in quotes starts with. -/
def mayStart : H → Bool
  | .shortString | .shortField | .shortClob | .quote1 _ => true
  | _ => false

/-- The continuation after a comment within a long string. -/
def Back (ret : Option H) : Prop := ∀ h, ret = some h → ∃ f cl, h = .long f cl 0 false false

/-- An event that is not a request for data. -/
def Real (e : IonEvent) : Prop := e.eventType.isStreamSignal = false

/-- What handlers carry with them. -/
def Carries (x : Ctx) : H → Prop
  | .slashEnd e => Real e
  | .longSymbol e => Real e
  | .comment ret => Back ret
  | .commentBody ret block _ => Back ret ∧ (block = true → x.lineComment = false)
  | .sexpSlash ret e => Back ret ∧ ∀ e', e = some e' → Real e'
  | _ => True

/-- Where handlers are. -/
def Place (x : Ctx) (p l : List Nat) : H → Prop
  | .sexpSlash _ _ => x.quoted = true → NoSharp l
  | .quote2 _ => ∃ p0, p = 39 :: p0
  | .commentBody none true (some 42) => x.quoted = true → ∃ a p0, p = a :: p0 ∧ isWs a = false
  | _ => True

/-- A handler and its context. -/
structure Kept (x : Ctx) (h : H) (p l : List Nat) : Prop where
  quote : x.quoted = true → mayQuote h = true
  carries : Carries x h
  place : Place x p l h

/-- After a comment, or after an empty symbol: the next character is read or `c` is taken. -/
def SelfOk (c : Nat) (p l : List Nat) (x : Ctx) : Prop := x.quoted = true →
  (x.selfDelim = true → Lead p) ∧ (c = 47 → (x.selfDelim = true ∧ x.lineComment = false) ∨ NoSharp l) ∧ (isWs c = true → Lead p)

/-- What may be done after the character `c`: the transition `r`, with the context `x`; `p` has been read, `l` is left. -/
def ResOk (c : Nat) (p l : List Nat) (x : Ctx) : Res → Prop
  | .imm h => Kept x h p l
  | .self => SelfOk c p l x
  | .event e => Real e
  | .composite e none nx => Real e ∧ nx.quoted = false
  | .composite e (some h) nx => Real e ∧ Kept nx h p l

/-- What a handler makes of a character. -/
def Good (c : Nat) (p l : List Nat) (r : Except PyErr Out) : Prop := ∀ o, r = .ok o → match o.unread with
  | none => ResOk c p l o.ctx o.res
  | some u => ∃ p', p = u :: p' ∧ ResOk c p' (u :: l) o.ctx o.res

/-- What the creation of a handler gives. -/
def Made (r : Except PyErr (Ctx × H)) : Prop := ∀ y h, r = .ok (y, h) → ∀ p l, Kept y h p l

/-- How a character has been delivered to a handler: `p` had been read and `l` was left, then `p'` and `l'`. -/
structure Deliv (p l : List Nat) (c : Ch) (p' l' : List Nat) : Prop where
  fine : Fine (p'.reverse ++ l')
  quote : c.esc = false → c.code = 39 → p' = 39 :: p
  back : NoSharp l → p' = c.code :: p
  star : c.code = 42 → ∃ a p0, p' = a :: p0 ∧ isWs a = false
  line : isNewline c.code = true ∨ c.code = EOF → Lead p'
  slash : c.code = 47 → p' = 47 :: p ∨ Lead p'

variable {c : Nat} {p l : List Nat} {x : Ctx} {v : Env} {F : FloatText}

theorem good_error {e : PyErr} : Good c p l (.error e) := by rintro o ⟨⟩
theorem good_ok {r : Res} (h : ResOk c p l x r) : Good c p l (.ok { ctx := x, res := r }) := by rintro o ⟨⟩; exact h
theorem good_back {u : Nat} {r : Res} {p' : List Nat} (hp : p = u :: p') (h : ResOk c p' (u :: l) x r) : Good c p l (.ok { unread := some u, ctx := x, res := r }) := by
  rintro o ⟨⟩; exact ⟨p', hp, h⟩
theorem good_go {r : Except PyErr (Ctx × H)} (h : Made r) : Good c p l (andGo r) := by
  unfold andGo
  split
  · exact good_error
  · rename_i y h'; exact good_ok (h _ _ rfl _ _)
theorem good_goBack {r : Except PyErr (Ctx × H)} {u : Nat} {p' : List Nat} (hp : p = u :: p') (h : Made r) : Good c p l (andGo r (some u)) := by
  unfold andGo
  split
  · exact good_error
  · rename_i y h'; exact good_back hp (h _ _ rfl _ _)
theorem made_error {e : PyErr} : Made (.error e) := by rintro y h ⟨⟩
theorem made_ok {h : H} (hh : ∀ p l, Kept x h p l) : Made (.ok (x, h)) := by rintro y h ⟨⟩; exact hh

/-- Out of quotes. -/
theorem kept_plain {h : H} (hq : x.quoted = false) (hc : Carries x h) (hp : Place x p l h) : Kept x h p l := ⟨fun h => (by rw [hq] at h; cases h), hc, hp⟩

/-- Within quotes or not. -/
theorem kept_quote {h : H} (hm : mayQuote h = true) (hc : Carries x h) (hp : Place x p l h) : Kept x h p l := ⟨fun _ => hm, hc, hp⟩

theorem real_event {d : Nat} {ty : Option IonType} {w : Except PyErr (Option PyVal)} : Real (x.event d ty w) := rfl

theorem real_symbol {d : Nat} {t : TextReader.Tok} {e : IonEvent} (h : x.symbolEvent d t = .ok e) : Real e := by
  cases t with
  | ivm k =>
    simp only [Ctx.symbolEvent] at h
    repeat' split at h
    all_goals cases h
    rfl
  | _ => cases h; rfl

theorem unicode_false {y : Ctx} (h : x.setUnicode false = .ok y) : y.quoted = false := by
  unfold Ctx.setUnicode at h
  split at h
  · split at h
    · rename_i hq; cases h; exact hq
    · cases h
  · cases h; rfl

/-! ## Creation of handlers -/

theorem made_operator : Made (mkOperator c x) := by
  unfold mkOperator
  split
  · exact made_error
  · rename_i y hy; exact made_ok fun _ _ => kept_plain (by simp [unicode_false hy]) trivial trivial

theorem made_unquoted {f : Bool} : Made (mkUnquoted v c x f) := by
  unfold mkUnquoted
  split
  · exact made_error
  · rename_i y hy
    repeat' split
    all_goals first | exact made_error | exact made_ok fun _ _ => kept_plain (by simp [unicode_false hy]) trivial trivial

theorem made_numeric {k : NumKind} (hq : x.quoted = false) : Made (mkNumeric k c x) := by
  unfold mkNumeric
  repeat' split
  all_goals first | exact made_error | exact made_ok fun _ _ => kept_plain (by simp [hq]) trivial trivial | exact made_ok fun _ _ => kept_plain (by split <;> simp [hq]) trivial trivial

theorem made_timestamp (hq : x.quoted = false) : Made (mkTimestamp c x) := by
  unfold mkTimestamp
  dsimp only
  split
  · exact made_error
  · exact made_ok fun _ _ => kept_plain (by simp [hq]) trivial trivial

theorem made_zero (hq : x.quoted = false) : Made (mkZeroStart c x) := by
  unfold mkZeroStart
  split
  · exact made_ok fun _ _ => kept_plain (by simp [hq]) trivial trivial
  · exact made_error

theorem made_tsZero (hq : x.quoted = false) : Made (mkTsZero c x) := by
  unfold mkTsZero
  dsimp only
  split
  · exact made_error
  · split
    · exact made_error
    · exact made_ok fun _ _ => kept_plain (by simp [hq]) trivial trivial

theorem made_whole {b : Bool} (hq : x.quoted = false) : Made (wholeTable b c x) := by
  unfold wholeTable
  repeat' split
  all_goals first | exact made_numeric hq | exact made_error

theorem made_quotedSymbol {f : Bool} {c : Ch} : Made (mkQuotedSymbol c x f) := by
  unfold mkQuotedSymbol
  repeat' split
  all_goals first | exact made_error | exact made_ok fun _ _ => kept_quote rfl trivial trivial

theorem made_short {f : Bool} : Made (mkShort x f) := by
  unfold mkShort
  dsimp only
  repeat' split
  all_goals first | exact made_error | exact made_ok fun _ _ => kept_quote rfl trivial trivial

theorem made_long {f : Bool} : Made (mkLong x f) := by
  unfold mkLong
  dsimp only
  repeat' split
  all_goals first | exact made_error | exact made_ok fun _ _ => kept_quote rfl trivial trivial

theorem made_clobEnd (hq : x.quoted = false) : Made (mkClobEnd c x) := by
  unfold mkClobEnd
  repeat' split
  all_goals first | exact made_error | exact made_ok fun _ _ => kept_plain hq trivial trivial

theorem made_blobEnd : Made (mkBlobEnd c x) := by
  unfold mkBlobEnd
  repeat' split
  all_goals first | exact made_error | exact made_ok fun _ _ => kept_quote rfl trivial trivial

theorem made_keyword {f : Bool} (hq : x.quoted = false) : Made (mkKeyword v c x f) := by
  unfold mkKeyword
  split
  · split
    · exact made_error
    · split
      · exact made_error
      · rename_i y hy; exact made_ok fun _ _ => kept_plain (by simp [unicode_false hy]) trivial trivial
  · split
    · exact made_ok fun _ _ => kept_plain hq trivial trivial
    · exact made_error

theorem made_dollar {f : Bool} : Made (mkDollar v c x f) := by
  unfold mkDollar
  split
  · exact made_error
  · rename_i y hy; exact made_ok fun _ _ => kept_plain (by simp [unicode_false hy]) trivial trivial

theorem made_field (hq : x.quoted = false) : Made (fieldTable v c x) := by
  unfold fieldTable
  repeat' split
  all_goals first | exact made_error | exact made_short | exact made_dollar | exact made_keyword hq | exact made_ok fun _ _ => kept_plain hq trivial trivial

theorem made_value (hq : x.quoted = false) : Made (valueTable v c x) := by
  unfold valueTable
  repeat' split
  all_goals first | exact made_error | exact made_short | exact made_dollar | exact made_zero hq | exact made_keyword hq | exact made_ok fun _ _ => kept_plain (by simp [hq]) trivial trivial

/-! ## Characters -/

theorem self_plain (hq : x.quoted = false) : SelfOk c p l x := fun h => by rw [hq] at h; cases h

theorem good_endNumber {c' : Ch} {e : IonEvent} (hq : x.quoted = false) (he : Real e) : Good c p l (endNumber x c' e) := by
  unfold endNumber
  split
  · exact good_ok (kept_plain hq he trivial)
  · exact good_ok he

theorem good_numeric {k : NumKind} {n : Nat} {c' : Ch} (hq : x.quoted = false) : Good c p l (onNumeric F v k n x c') := by
  unfold onNumeric NumKind.transition
  repeat' split
  all_goals first | exact good_error | exact good_endNumber hq rfl | exact good_go (made_whole hq) | exact good_ok (kept_plain (by simp [hq]) trivial trivial)

theorem good_ts {s : TsState} {c' : Ch} (hq : x.quoted = false) : Good c p l (onTs v s x c') := by
  unfold onTs
  dsimp only
  repeat' split
  all_goals first | exact good_error | exact good_endNumber hq rfl | exact good_ok (kept_plain hq trivial trivial)

theorem kept_back {ret : Option H} {h : H} (hb : Back ret) (hr : ret = some h) : Kept x h p l := by
  obtain ⟨f, cl, rfl⟩ := hb h hr
  exact kept_quote rfl trivial trivial

theorem good_comment {ret : Option H} {b : Bool} {prev : Option Nat} {c' : Ch} {p0 l0 : List Nat} (h : Kept x (.commentBody ret b prev) p0 l0) (hd : Deliv p0 l0 c' p l) :
    Good c'.code p l (onComment ret b prev x c') := by
  obtain ⟨_, ⟨h1, h2⟩, h3⟩ := h
  unfold onComment
  dsimp only
  generalize hstop : (if b = true then decide (prev = some 42) && decide (c'.code = 47) else isNewline c'.code || decide (c'.code = EOF)) = stop
  cases stop with
  | true =>
    rw [if_pos rfl]
    cases ret with
    | some h' => exact good_ok (kept_back h1 rfl)
    | none =>
      refine good_ok (r := .self) fun hq => ?_
      cases b with
      | true =>
        simp only [if_true, Bool.and_eq_true, decide_eq_true_eq] at hstop
        obtain ⟨rfl, hc⟩ := hstop
        have hlead : Lead p := by
          rcases hd.slash hc with hp | hp
          · obtain ⟨a, p1, rfl, ha⟩ := h3 hq
            rw [hp]
            exact lead_two (.inl (by decide)) ha
          · exact hp
        exact ⟨fun _ => hlead, fun _ => .inl ⟨rfl, h2 rfl⟩, fun _ => hlead⟩
      | false =>
        simp only [Bool.false_eq_true, if_false, Bool.or_eq_true, decide_eq_true_eq] at hstop
        have hlead := hd.line hstop
        refine ⟨fun _ => hlead, fun hc => ?_, fun _ => hlead⟩
        rw [hc] at hstop
        rcases hstop with h | h <;> exact absurd h (by decide)
  | false =>
    rw [if_neg (by simp)]
    refine good_ok (kept_quote rfl ⟨h1, h2⟩ ?_)
    cases ret with
    | some h' => trivial
    | none =>
      cases b with
      | false => trivial
      | true =>
        simp only [if_true]
        by_cases hc : c'.code = 42
        · rw [hc]; exact fun _ => hd.star hc
        · show Place _ _ _ (.commentBody none true (some c'.code))
          unfold Place
          split
          · trivial
          · trivial
          · rename_i heq; injection heq with _ _ h5; injection h5 with h6; exact absurd h6 hc
          · trivial

theorem good_thenOperator {e : IonEvent} {o u : Nat} {p' : List Nat} (hp : p = u :: p') (he : Real e) : Good c p l (thenOperator e o x u) := by
  unfold thenOperator
  split
  · exact good_error
  · rename_i nx h ho
    exact good_back hp ⟨he, made_operator _ _ ho _ _⟩

theorem good_sexpSlash {ret : Option H} {e : Option IonEvent} {c' : Ch} {p0 l0 : List Nat} (h : Kept x (.sexpSlash ret e) p0 l0) (hp : p = c'.code :: p0) :
    Good c'.code p l (onSexpSlash ret e x c') := by
  obtain ⟨_, ⟨h1, h2⟩, _⟩ := h
  unfold onSexpSlash
  split
  · exact good_error
  · rename_i u hu
    obtain ⟨rfl, _⟩ := checkUnread_ok hu
    split
    · exact good_back hp (kept_quote rfl h1 trivial)
    · split
      · exact good_thenOperator hp (h2 _ rfl)
      · exact good_goBack hp made_operator

theorem extend_quoted {f : Bool} {t : List Nat} : (x.extend f t).quoted = x.quoted := by unfold Ctx.extend; split <;> rfl

theorem good_long {f cl : Bool} {n : Nat} {d first : Bool} {c' : Ch} {p0 : List Nat} (hq : d = false → x.quoted = false) (hp : d = false → p = c'.code :: p0) :
    Good c'.code p l (onLong v f cl n d first x c') := by
  unfold onLong
  dsimp only
  have hq' : d = false → (if first = true then x else { x with selfDelim := false }).quoted = false := by
    intro hd; split <;> exact hq hd
  generalize (if first = true then x else { x with selfDelim := false }) = y at hq'
  have here : ∀ (y : Ctx) (n : Nat) (d : Bool) (p l : List Nat), Kept y (.long f cl n d false) p l := fun y n d p l => kept_quote rfl trivial trivial
  split
  · split
    · exact good_ok (here _ _ _ _ _)
    · exact good_ok (here _ _ _ _ _)
  · split
    · split
      · exact good_error
      · exact good_ok (here _ _ _ _ _)
    · rename_i hd
      have hd : d = false := by simpa using hd
      subst hd
      have hq := hq' rfl
      have hp := hp rfl
      split
      · unfold longQuotes
        dsimp only
        repeat' split
        all_goals first
          | exact good_error
          | exact good_back hp (kept_quote rfl real_event trivial)
          | exact good_ok ⟨real_event, hq⟩
      · split
        · exact good_ok (here _ _ _ _ _)
        · unfold longAfter
          dsimp only
          split
          · exact good_go (made_clobEnd hq)
          · split
            · split
              · exact good_ok (kept_plain hq ⟨by rintro h ⟨⟩; exact ⟨_, _, rfl⟩, by rintro e ⟨⟩; rfl⟩ fun h => by rw [hq] at h; cases h)
              · exact good_ok (kept_plain hq (by rintro h ⟨⟩; exact ⟨_, _, rfl⟩) trivial)
            · split
              · split
                · exact good_error
                · exact good_ok (self_plain hq)
              · exact good_ok rfl

theorem good_typedNull {n : NullNode} {c' : Ch} (hq : x.quoted = false) : Good c p l (onTypedNull v n x c') := by
  unfold onTypedNull
  split
  · split
    · exact good_ok rfl
    · exact good_error
  · split
    · exact good_error
    · exact good_ok (kept_plain hq trivial trivial)

theorem good_symbolEnd {f : Bool} {t : TextReader.Tok} {n : Nat} : Good c p l (symbolEnd v n x f t) := by
  unfold symbolEnd
  split
  · exact good_ok (self_plain rfl)
  · split
    · exact good_error
    · rename_i e he
      exact good_ok (real_symbol he)

theorem good_notKeyword {f : Bool} {n : Nat} (hq : x.quoted = false) : Good c p l (notKeyword v f x n) := by
  unfold notKeyword
  repeat' split
  · exact good_ok (self_plain hq)
  · exact good_error
  · rename_i e he; exact good_ok (real_symbol he)
  · exact good_go made_unquoted

theorem checkKeyword_ok {k : Kw} {f b : Bool} {i n : Nat} {r : Res} (hq : x.quoted = false) (h : checkKeyword v k f i x n = .ok (b, some r)) : ResOk c p l x r := by
  unfold checkKeyword at h
  repeat' split at h
  all_goals cases h
  all_goals first | exact kept_plain hq trivial trivial | (cases k <;> rfl)

theorem keywordChecks_ok {s : KwState} {n : Nat} (hq : x.quoted = false) : ∀ s' r, keywordChecks v s x n = .ok (s', some r) → ResOk c p l x r := by
  have one : ∀ (s1 : KwState) (k : Kw) (g : Bool → KwState), ∀ s' r, (do let r ← checkKeyword v k s1.isField s1.index x n
                                                                          return (g r.1, r.2) : Except PyErr (KwState × Option Res)) = .ok (s', some r) → ResOk c p l x r := by
    intro s1 k g
    cases hc : checkKeyword v k s1.isField s1.index x n with
    | error e => rintro s' r ⟨⟩
    | ok p =>
      obtain ⟨b, r2⟩ := p
      rintro s' r ⟨⟩
      exact checkKeyword_ok hq hc
  have key : ∀ (s1 : KwState) (r1 : Option Res), (∀ r', r1 = some r' → ResOk c p l x r') →
      let a := (if s1.maybeNan = true then do
        let r ← checkKeyword v .nan s1.isField s1.index x n
        return ({ s1 with maybeNan := r.1 }, r.2)
      else if s1.maybeTrue = true then do
        let r ← checkKeyword v .true_ s1.isField s1.index x n
        return ({ s1 with maybeTrue := r.1 }, r.2)
      else if s1.maybeFalse = true then do
        let r ← checkKeyword v .false_ s1.isField s1.index x n
        return ({ s1 with maybeFalse := r.1 }, r.2)
      else return (s1, r1) : Except PyErr (KwState × Option Res))
      ∀ s' r, a = .ok (s', some r) → ResOk c p l x r := by
    intro s1 r1 h1
    dsimp only
    split
    · exact one s1 .nan (fun b => { s1 with maybeNan := b })
    · split
      · exact one s1 .true_ (fun b => { s1 with maybeTrue := b })
      · split
        · exact one s1 .false_ (fun b => { s1 with maybeFalse := b })
        · rintro s' r ⟨⟩
          exact h1 _ rfl
  unfold keywordChecks
  by_cases hn : s.maybeNull = true
  · cases hc : checkKeyword v .null s.isField s.index x n with
    | error e =>
      simp only [hn, if_true]
      rintro s' r ⟨⟩
    | ok p =>
      obtain ⟨b, r2⟩ := p
      simp only [hn, if_true]
      exact key { s with maybeNull := b } r2 (by rintro r' rfl; exact checkKeyword_ok hq hc)
  · simp only [hn, if_false]
    exact key s none (by rintro r' ⟨⟩)

theorem good_keyword {s : KwState} {c' : Ch} (hq : x.quoted = false) : Good c p l (onKeyword v s x c') := by
  unfold onKeyword
  split
  · exact good_error
  · rename_i s' tr he
    split
    · split
      · rename_i r; exact good_ok (keywordChecks_ok hq _ _ he)
      · exact good_ok (kept_plain hq trivial trivial)
    · exact good_notKeyword hq

theorem good_notInf {i n : Nat} : Good c p l (notInf v i x n) := by
  unfold notInf
  split
  · exact good_error
  · rename_i y hy
    split
    · exact good_error
    · split
      · split
        · exact good_go made_operator
        · split
          · exact good_error
          · rename_i he; exact good_ok (real_symbol he)
      · split
        · exact good_error
        · rename_i he
          split
          · exact good_error
          · rename_i nx h hu
            exact good_ok ⟨real_symbol he, made_unquoted _ _ hu _ _⟩

theorem good_inf {b : Bool} {i : Nat} {c' : Ch} (hq : x.quoted = false) : Good c p l (onInf v b i x c') := by
  unfold onInf
  dsimp only
  repeat' split
  all_goals first | exact good_notInf | exact good_ok (kept_plain (by simp [hq]) trivial trivial) | exact good_ok rfl

theorem good_unquoted {f : Bool} {n : Nat} {c' : Ch} (hq : x.quoted = false) : Good c p l (onUnquoted v f n x c') := by
  unfold onUnquoted
  repeat' split
  all_goals first | exact good_error | exact good_symbolEnd | exact good_ok (kept_plain (by simp [hq]) trivial trivial)

theorem good_dollar {s : DollarState} {c' : Ch} (hq : x.quoted = false) : Good c p l (onDollar v s x c') := by
  unfold onDollar dollarEnd
  dsimp only
  split
  · exact good_ok (kept_plain hq trivial trivial)
  · split
    · split
      · exact good_symbolEnd
      · split
        · split
          · exact good_error
          · exact good_symbolEnd
        · split <;> exact good_symbolEnd
    · split
      · exact good_ok (kept_plain (by simp [hq]) trivial trivial)
      · split
        · exact good_go made_unquoted
        · exact good_ok (kept_plain (by simp [hq]) trivial trivial)

theorem good_short {f cl : Bool} {h : H} {c' : Ch} (hm : mayQuote h = true) (hc : ∀ x, Carries x h) (hp : ∀ x p l, Place x p l h) : Good c p l (onShort v f cl h x c') := by
  unfold onShort
  split
  · split
    · exact good_ok (self_plain rfl)
    · split
      · exact good_go (made_clobEnd rfl)
      · exact good_ok rfl
  · split
    · exact good_error
    · exact good_ok (kept_quote hm (hc _) (hp _ _ _))

theorem good_quotedSymbol {f : Bool} {c' : Ch} : Good c p l (onQuotedSymbol v f x c') := by
  unfold onQuotedSymbol
  repeat' split
  all_goals first | exact good_error | exact good_symbolEnd | exact good_ok (kept_quote rfl trivial trivial)

theorem good_lobStart {n : Nat} {c' : Ch} : Good c p l (onLobStart n x c') := by
  unfold onLobStart
  split
  · split
    · exact good_error
    · exact good_ok (kept_quote rfl trivial trivial)
  · split
    · split
      · exact good_error
      · split
        · exact good_error
        · exact good_go made_short
    · split
      · split
        · exact good_error
        · split
          · exact good_go made_long
          · exact good_ok (kept_quote rfl trivial trivial)
      · exact good_go made_blobEnd

theorem good_blobEnd {n d k : Nat} {c' : Ch} : Good c p l (onBlobEnd v n d k x c') := by
  unfold onBlobEnd lobEvent
  repeat' split
  all_goals first | exact good_error | exact good_ok rfl | exact good_ok (kept_quote rfl trivial trivial)

theorem good_clobEnd {n : Nat} {c' : Ch} (hq : x.quoted = false) : Good c p l (onClobEnd v n x c') := by
  unfold onClobEnd lobEvent
  repeat' split
  all_goals first | exact good_error | exact good_ok rfl | exact good_ok (kept_plain hq trivial trivial)

theorem commentStart_line {c' : Ch} {y : Ctx} {b : Bool} (h : commentStart x c' = .ok (y, b)) : b = true → y.lineComment = false := by
  unfold commentStart at h
  repeat' split at h
  all_goals cases h
  all_goals simp

/-- What handlers do. -/
theorem handle_good (F : FloatText) {h : H} {c' : Ch} {p0 l0 : List Nat} {q : Bool} (hk : Kept x h p0 l0) (hd : Deliv p0 l0 c' p l) (hs : HSafe v.depth x h) (hq : q = true → mayStart h = true)
    (hraw : x.quoted = false → q = false → p = c'.code :: p0) : Good c'.code p l (handle F v x h c') := by
  have plain : mayQuote h = false → x.quoted = false := by
    intro hm
    cases hx : x.quoted with
    | false => rfl
    | true => rw [hk.quote hx] at hm; cases hm
  have raw : mayStart h = false → x.quoted = false → p = c'.code :: p0 := by
    intro hm hx
    refine hraw hx ?_
    cases hq' : q with
    | false => rfl
    | true => rw [hq hq'] at hm; cases hm
  cases h with
  | negStart =>
    have hx := plain rfl
    simp only [handle]
    repeat' split
    · exact good_go (made_zero hx)
    · exact good_go (made_numeric hx)
    · exact good_error
    · rename_i u hu
      obtain ⟨rfl, _⟩ := checkUnread_ok hu
      exact good_back (raw rfl hx) (kept_plain hx trivial trivial)
  | zeroStart =>
    have hx := plain rfl
    simp only [handle]
    repeat' split
    all_goals first | exact good_endNumber hx rfl | exact good_go (made_numeric hx) | exact good_go (made_tsZero hx) | exact good_go (made_whole hx)
  | number =>
    have hx := plain rfl
    simp only [handle]
    repeat' split
    all_goals first | exact good_endNumber hx rfl | exact good_go (made_numeric hx) | exact good_go (made_timestamp hx) | exact good_go (made_whole hx) | exact good_ok (kept_plain (by simp [hx]) trivial trivial)
  | slashEnd e =>
    simp only [handle]
    split
    · exact good_error
    · rename_i y b he
      exact good_ok ⟨hk.carries, kept_quote rfl ⟨by rintro h ⟨⟩, commentStart_line he⟩ (by cases b <;> trivial)⟩
  | numeric k n => exact good_numeric (plain rfl)
  | tsZero =>
    have hx := plain rfl
    simp only [handle]
    repeat' split
    all_goals first | exact good_error | exact good_go (made_timestamp hx) | exact good_ok (kept_plain (by simp [hx]) trivial trivial)
  | ts s => exact good_ts (plain rfl)
  | comment ret =>
    simp only [handle]
    split
    · exact good_error
    · rename_i y b he
      exact good_ok (kept_quote rfl ⟨hk.carries, commentStart_line he⟩ (by cases ret <;> cases b <;> trivial))
  | commentBody ret b prev => exact good_comment hk hd
  | sexpSlash ret e =>
    refine good_sexpSlash hk ?_
    cases hx : x.quoted with
    | false => exact raw rfl hx
    | true => exact hd.back (hk.place hx)
  | long f cl n d first =>
    have hx : d = false → x.quoted = false := by
      cases f with
      | true => exact hs.2.2.2
      | false => exact hs
    exact good_long hx fun h => raw rfl (hx h)
  | longSymbol e =>
    simp only [handle]
    split
    · exact good_error
    · rename_i y h he
      exact good_ok ⟨hk.carries, made_quotedSymbol _ _ he _ _⟩
  | typedNull n => exact good_typedNull (plain rfl)
  | operatorStart o =>
    have hx := plain rfl
    simp only [handle]
    split
    · exact good_error
    · rename_i u hu
      obtain ⟨rfl, _⟩ := checkUnread_ok hu
      exact good_goBack (raw rfl hx) made_operator
  | operatorAfter o =>
    have hx := plain rfl
    simp only [handle]
    split
    · exact good_error
    · rename_i u hu
      obtain ⟨rfl, _⟩ := checkUnread_ok hu
      split
      · exact good_error
      · split
        · exact good_error
        · rename_i he; exact good_thenOperator (raw rfl hx) (real_symbol he)
  | keyword s => exact good_keyword (plain rfl)
  | inf b i => exact good_inf (plain rfl)
  | operator =>
    have hx := plain rfl
    simp only [handle]
    split
    · exact good_ok (kept_plain (by simp [hx]) trivial trivial)
    · split
      · exact good_error
      · rename_i he; exact good_ok (real_symbol he)
  | unquoted f n => exact good_unquoted (plain rfl)
  | dollar s => exact good_dollar (plain rfl)
  | shortString => exact good_short rfl (fun _ => trivial) (fun _ _ _ => trivial)
  | shortField => exact good_short rfl (fun _ => trivial) (fun _ _ _ => trivial)
  | shortClob => exact good_short rfl (fun _ => trivial) (fun _ _ _ => trivial)
  | quotedSymbol f => exact good_quotedSymbol
  | quote1 f =>
    have hx := plain rfl
    simp only [handle]
    split
    · rename_i hc
      exact good_ok (kept_plain (by simp [hx]) trivial ⟨p0, hd.quote (by simpa using hc.2) hc.1⟩)
    · split
      · exact good_error
      · exact good_go made_quotedSymbol
  | quote2 f =>
    have hx := plain rfl
    have hp := raw rfl hx
    obtain ⟨p1, hp1⟩ := hk.place
    simp only [handle]
    split
    · split
      · exact good_error
      · exact good_go made_long
    · split
      · exact good_error
      · refine good_ok (r := .self) fun _ => ?_
        have hlead : Lead p := by rw [hp, hp1]; exact lead_two (.inr rfl) (by decide)
        refine ⟨fun _ => hlead, fun hc => .inr ?_, fun _ => hlead⟩
        rw [hc] at hp
        have := hd.fine
        rw [hp, hp1] at this
        exact lead_slash (lead_cons (by decide) (by decide)) this
  | structOrLob =>
    have hx := plain rfl
    simp only [handle]
    split
    · exact good_ok (kept_quote rfl trivial trivial)
    · split
      · exact good_error
      · rename_i u hu
        obtain ⟨rfl, _⟩ := checkUnread_ok hu
        exact good_back (raw rfl hx) (kept_plain hx trivial trivial)
  | lobStart n => exact good_lobStart
  | blobEnd n d k => exact good_blobEnd
  | clobEnd n => exact good_clobEnd (plain rfl)
  | containerStart ty => exact good_ok rfl

end Ion.TextReader.Whole
