import Verif.TextReject
import Verif.TextBadSpec
set_option linter.unusedSimpArgs false
/-!
# Tokens that the text reader rejects
-/
namespace Ion.TextReader
open Ion Ion.TextSpec
variable [Fate]

section
variable {F : FloatText} {P : Loc} {fld : Bool} {x x' : Ctx} {h h' : H} {q b b' : Bool} {r g : List Nat} {es : List IonEvent} {cm : Bool} {c : Nat}
  {f : Option SymbolToken} {as : List SymbolToken}

/-- The text ends within quotes. -/
theorem t_cutQ (h0 : Fate.o = some .ionException) (hq : (x.quoted || q) = true) (hcs : isCS h = false) : T F P fld x h q b [] [] := by
  intro cm cf _
  refine events_go ?_
  simp only [next]
  rw [onToken_code hq hcs]
  exact run_cut h0

omit [Fate] in
theorem not_surrogate {c : Nat} (h : TextSpec.IsScalarValue c) : isLowSurrogate c = false ∧ isHighSurrogate c = false := by
  have := h.2
  simp [isLowSurrogate, isHighSurrogate]
  omega

omit [Fate] in
theorem hex_iff {c : Nat} : isHex c = true ↔ ∃ v, TextSpec.HexDigit c v := by
  constructor
  · intro h
    simp only [isHex, isDigit, Bool.or_eq_true, Bool.and_eq_true, decide_eq_true_eq] at h
    rcases h with (⟨h1, h2⟩ | ⟨h1, h2⟩) | ⟨h1, h2⟩
    · exact ⟨_, .digit c h1 h2⟩
    · first | exact ⟨_, .upper c h1 h2⟩ | exact ⟨_, .lower c h1 h2⟩
    · first | exact ⟨_, .upper c h1 h2⟩ | exact ⟨_, .lower c h1 h2⟩
  · rintro ⟨v, hv⟩
    exact (hex_spec hv).1

omit [Fate] in
theorem escape_iff {e v : Nat} (h : commonEscape e = some v) : (e, v) ∈ TextSpec.escapes := by
  have hlt : e < 128 := by
    refine Nat.lt_of_not_le fun hge => ?_
    simp only [commonEscape] at h
    repeat (rw [if_neg (by omega)] at h)
    exact absurd h (by simp)
  have key : ∀ e < 128, ∀ v, commonEscape e = some v → (e, v) ∈ TextSpec.escapes := by
    have : ∀ e < 128, ∀ p ∈ (commonEscape e).map fun v => (e, v), p ∈ TextSpec.escapes := by decide +kernel
    intro e he v hv
    exact this e he (e, v) (by rw [hv]; rfl)
  exact key e hlt v h

/-- What may not stand within quotes. -/
theorem run_badChar {clob : Bool} (h0 : Fate.o = some .ionException) (hb : TextSpec.BadChar clob r) {s : St} {k : Ch → Act} {l : Option Nat}
    (hk : ∀ l c r, (c < 0x20 ∧ ¬ TextSpec.IsSpace c) ∨ (clob = true ∧ 0x7F < c ∧ c ≤ 0x10FFFF) → Run F l (k { code := c }) r []) : Run F l (codePoint clob s k) r [] := by
  have hbs : isLowSurrogate 92 = false ∧ isHighSurrogate 92 = false := by decide
  cases hb with
  | control c rest h1 h2 =>
    refine run_read ?_
    have h3 := not_surrogate (c := c) ⟨by omega, by omega⟩
    have h4 : c ≠ 92 := by omega
    have h5 : c ≠ 13 := by rintro rfl; simp [TextSpec.IsSpace] at h2
    simp only [h3.1, h3.2, h4, newline, h5, Bool.false_eq_true, if_false]
    exact hk _ _ _ (.inl ⟨h1, h2⟩)
  | nonAscii c rest h1 h2 h3 =>
    refine run_read ?_
    have h4 := not_surrogate h3
    have h5 : c ≠ 92 := by omega
    have h6 : c ≠ 13 := by omega
    simp only [h4.1, h4.2, h5, newline, h6, Bool.false_eq_true, if_false]
    exact hk _ _ _ (.inr ⟨h1, h2, h3.1⟩)
  | cut =>
    refine run_read ?_
    simp only [hbs.1, hbs.2, Bool.false_eq_true, if_false, if_true, escapeSeq]
    exact run_cut h0
  | escape e rest h1 =>
    refine run_read ?_
    simp only [hbs.1, hbs.2, Bool.false_eq_true, if_false, if_true, escapeSeq]
    refine run_read ?_
    obtain ⟨h1, h2, h3, h4⟩ := h1
    have h5 : ¬ (e = 117 ∧ ¬ clob = true) := by rintro ⟨rfl, hc⟩; exact h2 4 (.inr ⟨by simpa using hc, .inl ⟨rfl, rfl⟩⟩)
    have h6 : ¬ e = 120 := by rintro rfl; exact h2 2 (.inl ⟨rfl, rfl⟩)
    have h7 : ¬ (e = 85 ∧ ¬ clob = true) := by rintro ⟨rfl, hc⟩; exact h2 8 (.inr ⟨by simpa using hc, .inr ⟨rfl, rfl⟩⟩)
    have h8 : commonEscape e = none := by
      cases hc : commonEscape e with
      | none => rfl
      | some v => exact absurd (escape_iff hc) (h1 v)
    have h9 : isNewline e = false := by simp [isNewline, h3, h4]
    simp only [if_neg h5, if_neg h6, if_neg h7, h8, h9, Bool.false_eq_true, if_false]
    exact run_err h0
  | hex e w k' ds n rest h1 h2 h3 h4 =>
    refine run_read ?_
    simp only [hbs.1, hbs.2, Bool.false_eq_true, if_false, if_true, escapeSeq]
    refine run_read ?_
    have key : ∀ {l : Option Nat} {k : Nat → Act}, Run F l (readHex w 0 k) (ds ++ rest) [] := by
      intro l k
      obtain ⟨m, rfl⟩ : ∃ m, w = k' + (m + 1) := ⟨w - k' - 1, by omega⟩
      refine run_hex h2 fun l => ?_
      simp only [readHex]
      cases rest with
      | nil => exact run_cut h0
      | cons c rest =>
        have : isHex c = false := by
          rw [Bool.eq_false_iff]
          exact fun hh => h4 c rest rfl (hex_iff.1 hh)
        refine run_read ?_
        simp only [this, Bool.false_eq_true, if_false]
        exact run_err h0
    rcases h1 with ⟨rfl, rfl⟩ | ⟨rfl, ⟨rfl, rfl⟩ | ⟨rfl, rfl⟩⟩
    · simp only [show (120 : Nat) ≠ 117 from by decide, false_and, if_false, if_true]
      exact key
    · simp only [Bool.false_eq_true, not_false_eq_true, and_self, if_true]
      exact key
    · simp only [show (85 : Nat) ≠ 117 from by decide, show (85 : Nat) ≠ 120 from by decide, Bool.false_eq_true, not_false_eq_true, and_self, false_and, if_false, if_true]
      exact key

/-- States of a handler within quotes: it takes every character but the closing quote and those that are not allowed. -/
structure Quoting (F : FloatText) (v : Env) (qc : Nat) (clob : Bool) (Q : Ctx → H → Prop) : Prop where
  code : ∀ x h, Q x h → isCS h = false ∧ decide (x.ionType = some .clob) = clob
  takes : ∀ x h, Q x h → ∀ c : Ch, c.code ≤ 0x10FFFF → ¬ (c.code = qc ∧ ¬ c.esc = true) → badQuoted false clob c = false →
    ∃ x' h', handle F v x h c = .ok { ctx := x', res := .imm h' } ∧ Q x' h' ∧ x'.quoted = true
  rejects : ∀ x h, Q x h → ∀ c : Ch, c.code ≤ 0x10FFFF → ¬ (c.code = qc ∧ ¬ c.esc = true) → badQuoted false clob c = true → handle F v x h c = .error .ionException

/-- Wrong text within quotes. -/
theorem t_badQuoted (h0 : Fate.o = some .ionException) {qc : Nat} {clob : Bool} (hqc : qc = 34 ∨ qc = 39) {Q : Ctx → H → Prop} (hQ : Quoting F P.env qc clob Q)
    (hb : TextSpec.BadQuoted qc clob r) : (∀ c ∈ r, c ≤ 0x10FFFF) → ∀ {x : Ctx} {h : H} {q b : Bool}, Q x h → (x.quoted || q) = true → T F P fld x h q b r [] := by
  have henv : ∀ {x : Ctx} {cm cf : Bool} {pc : Pc}, St.env ⟨P.outer, P.ty, fld, false, cm, cf, some x, pc⟩ = P.env := rfl
  induction hb with
  | cut => intro _ x h q b hx hq; exact t_cutQ h0 hq (hQ.code x h hx).1
  | char bs rest c hc _ ih =>
    intro hle x h q b hx hq cm cf _
    obtain ⟨h1, h2⟩ := hQ.code x h hx
    refine events_go ?_
    simp only [next]
    rw [onToken_code hq h1, h2]
    refine run_char hc fun l esc hesc => ?_
    have hle' := isChar_le hc
    obtain ⟨x', h', h3, h4, h5⟩ := hQ.takes x h hx { code := c, esc := esc } hle' (by
        rintro ⟨h3, h4⟩
        exact (hesc (by simpa using h4)).1 h3) (by
        cases esc with
        | true => simp [badQuoted]
        | false =>
          obtain ⟨_, h3, h4⟩ := hesc rfl
          have h5 := rawOk_not h3 hle'
          cases clob with
          | false => simpa [badQuoted] using h5
          | true =>
            have := h4 rfl
            simp only [badQuoted, Bool.false_eq_true, if_false, if_true, Bool.not_false, Bool.and_true]
            simp only [Bool.and_eq_false_iff, Bool.or_eq_false_iff, decide_eq_false_iff_not] at h5 ⊢
            rcases h5 with h5 | h5
            · exact .inl h5
            · exact .inr ⟨h5.1, by omega⟩)
    simp only [onChar, Option.getD_some, henv, h3, onRes, Option.map_some]
    exact run_go (ih (fun c hc => hle c (by simp [hc])) h4 (by simp [h5]) (b := false) _ _ (by simp))
  | continued nl rest hnl _ ih =>
    intro hle x h q b hx hq
    obtain ⟨h1, h2⟩ := hQ.code x h hx
    obtain ⟨x', h', h3, h4, h5⟩ := hQ.takes x h hx { code := 10, esc := true, nl := true } (by simp) (by simp) (by simp [badQuoted])
    have hr := ih (fun c hc => hle c (by simp [hc])) h4 (by simp [h5]) (q := false) (b := false)
    by_cases hne : rest = []
    · subst hne
      have h92 : isLowSurrogate 92 = false ∧ isHighSurrogate 92 = false := by decide
      intro cm cf _
      refine events_go ?_
      simp only [next]
      rw [onToken_code hq h1, List.append_nil]
      refine run_read ?_
      simp only [h92.1, h92.2, Bool.false_eq_true, if_false, if_true, escapeSeq]
      have hk : ∀ l, Run F l (onChar F ⟨P.outer, P.ty, fld, false, cm, cf, some x, .token h q⟩ x h (some { code := 10, esc := true, nl := true })) [] [] := by
        intro l
        simp only [onChar, Option.getD_some, henv, h3, onRes, Option.map_some]
        exact run_go (hr _ _ (by simp))
      rcases hnl with rfl | rfl | ⟨rfl, _⟩
      · refine run_read ?_
        simp only [show (10 : Nat) ≠ 117 from by decide, show (10 : Nat) ≠ 120 from by decide, show (10 : Nat) ≠ 85 from by decide, false_and, if_false,
          show commonEscape 10 = none from rfl, show isNewline 10 = true from rfl, if_true, newline, show (10 : Nat) ≠ 13 from by decide]
        exact hk _
      · refine run_read ?_
        simp only [show (13 : Nat) ≠ 117 from by decide, show (13 : Nat) ≠ 120 from by decide, show (13 : Nat) ≠ 85 from by decide, false_and, if_false,
          show commonEscape 13 = none from rfl, show isNewline 13 = true from rfl, if_true, newline]
        refine run_read ?_
        simp only [if_true]
        exact hk _
      · refine run_read ?_
        simp only [show (13 : Nat) ≠ 117 from by decide, show (13 : Nat) ≠ 120 from by decide, show (13 : Nat) ≠ 85 from by decide, false_and, if_false,
          show commonEscape 13 = none from rfl, show isNewline 13 = true from rfl, if_true, newline]
        exact run_cut h0
    · refine t_continued hq h1 hnl (fun r' hr' => ?_) hne h3 hr
      have := hle EOF (by rw [hr']; simp)
      simp [EOF] at this
  | newline c rest hc =>
    intro hle x h q b hx hq cm cf _
    obtain ⟨h1, h2⟩ := hQ.code x h hx
    refine events_go ?_
    simp only [next]
    rw [onToken_code hq h1, h2]
    have h3 := hQ.rejects x h hx { code := 10 } (by simp) (by rcases hqc with rfl | rfl <;> simp) (by simp [badQuoted, isWsNotNl])
    have hk : ∀ l r, Run F l (onChar F ⟨P.outer, P.ty, fld, false, cm, cf, some x, .token h q⟩ x h (some { code := 10 })) r [] := by
      intro l r
      simp only [onChar, Option.getD_some, henv, h3]
      exact run_err h0
    have h10 : isLowSurrogate 10 = false ∧ isHighSurrogate 10 = false := by decide
    have h13 : isLowSurrogate 13 = false ∧ isHighSurrogate 13 = false := by decide
    refine run_read ?_
    rcases hc with rfl | rfl
    · simp only [h10.1, h10.2, show (10 : Nat) ≠ 92 from by decide, newline, show (10 : Nat) ≠ 13 from by decide, Bool.false_eq_true, if_false]
      exact hk _ _
    · simp only [h13.1, h13.2, show (13 : Nat) ≠ 92 from by decide, newline, Bool.false_eq_true, if_false, if_true]
      cases rest with
      | nil => exact run_cut h0
      | cons c rest =>
        refine run_read ?_
        by_cases hc : c = 10
        · subst hc
          simp only [if_true]
          exact hk _ _
        · have hne : c ≠ EOF := by
            rintro rfl
            have := hle EOF (by simp)
            simp [EOF] at this
          simp only [if_neg hc, if_neg hne]
          exact run_unread (hk _ _)
  | bad rest hb =>
    intro hle x h q b hx hq cm cf _
    obtain ⟨h1, h2⟩ := hQ.code x h hx
    refine events_go ?_
    simp only [next]
    rw [onToken_code hq h1, h2]
    refine run_badChar h0 hb fun l c r hc => ?_
    have h3 := hQ.rejects x h hx { code := c } (by simp only; omega) (by simp only; omega) (by
      rcases hc with ⟨h3, h4⟩ | ⟨rfl, h3, h4⟩
      · have : isWsNotNl c = false := by
          simp only [TextSpec.IsSpace] at h4
          simp only [isWsNotNl, Bool.or_eq_false_iff, decide_eq_false_iff_not]
          omega
        simp [badQuoted, this, h3]
      · have : isWsNotNl c = false := by
          simp only [isWsNotNl, Bool.or_eq_false_iff, decide_eq_false_iff_not]
          omega
        simp [badQuoted, this, h3])
    simp only [onChar, Option.getD_some, henv, h3]
    exact run_err h0

/-! ## Strings, symbols, clobs -/

omit [Fate] in
/-- Short strings, field names and clobs. -/
theorem quoting_short {isField isClob : Bool} {h : H} (hh : ∀ x c, handle F P.env x h c = onShort P.env isField isClob h x c) (hcs : isCS h = false) :
    Quoting F P.env 34 isClob fun x h' => h' = h ∧ x.quoted = true ∧ decide (x.ionType = some .clob) = isClob := by
  constructor
  · rintro x _ ⟨rfl, _, h1⟩
    exact ⟨hcs, h1⟩
  · rintro x _ ⟨rfl, h1, h2⟩ c _ hc hb
    refine ⟨x.extend isField (if isNewline c.code ∧ c.nl then [] else [c.code]), _, ?_, ⟨rfl, ?_, ?_⟩, ?_⟩
    · rw [hh, onShort, if_neg hc, hb]
      rfl
    · cases isField <;> exact h1
    · cases isField <;> exact h2
    · cases isField <;> exact h1
  · rintro x _ ⟨rfl, h1, h2⟩ c _ hc hb
    rw [hh, onShort, if_neg hc, hb]
    rfl

omit [Fate] in
/-- Quoted symbols. -/
theorem quoting_symbol : Quoting F P.env 39 false fun x h => (h = .quotedSymbol fld ∧ x.quoted = true ∧ decide (x.ionType = some .clob) = false) ∨ (h = .quote1 fld ∧ x = dec f as) := by
  constructor
  · rintro x h (⟨rfl, _, h1⟩ | ⟨rfl, rfl⟩)
    · exact ⟨rfl, h1⟩
    · exact ⟨rfl, rfl⟩
  · rintro x h (⟨rfl, h1, h2⟩ | ⟨rfl, rfl⟩) c hle hc hb
    · refine ⟨x.extend false (if isNewline c.code ∧ c.nl then [] else [c.code]), _, ?_, .inl ⟨rfl, ?_, ?_⟩, ?_⟩
      · rw [handle, onQuotedSymbol, if_neg hc, hb]
        rfl
      · exact h1
      · exact h2
      · exact h1
    · have h4 : (dec f as).setUnicode true = .ok (qctx f as []) := rfl
      have h5 : (qctx f as []).setUnicode true = .ok (qctx f as []) := rfl
      have hne : c.code ≠ EOF := by simp only [EOF]; omega
      simp only [badQuoted, Bool.false_eq_true, if_false] at hb
      refine ⟨if c.nl then qctx f as [] else (qctx f as []).push c.code, .quotedSymbol fld, ?_, .inl ⟨rfl, ?_, ?_⟩, ?_⟩
      · simp only [handle, if_neg hc, h4, mkQuotedSymbol, h5, hne, if_false, hb, Bool.false_eq_true]
        rfl
      · cases c.nl <;> rfl
      · cases c.nl <;> rfl
      · cases c.nl <;> rfl
  · rintro x h (⟨rfl, h1, h2⟩ | ⟨rfl, rfl⟩) c hle hc hb
    · rw [handle, onQuotedSymbol, if_neg hc, hb]
      rfl
    · have h4 : (dec f as).setUnicode true = .ok (qctx f as []) := rfl
      have h5 : (qctx f as []).setUnicode true = .ok (qctx f as []) := rfl
      have hne : c.code ≠ EOF := by simp only [EOF]; omega
      simp only [badQuoted, Bool.false_eq_true, if_false] at hb
      simp only [handle, if_neg hc, h4, mkQuotedSymbol, h5, hne, if_false, hb, if_true]
      rfl

theorem at_badString (h0 : Fate.o = some .ionException) (hb : TextSpec.BadQuoted 34 false r) (hle : ∀ c ∈ r, c ≤ 0x10FFFF) :
    At F P false false (childOf f as) cm (34 :: r) [] := by
  refine at_value (x := sctx f as .string []) (h := .shortString) (q := true) (plainStart_of (.inl (by decide)) P) rfl rfl ?_
  exact t_badQuoted h0 (.inl rfl) (quoting_short (isField := false) (isClob := false) (h := .shortString) (fun _ _ => rfl) rfl) hb hle ⟨rfl, rfl, rfl⟩ rfl

theorem at_badFieldString (h0 : Fate.o = some .ionException) (hb : TextSpec.BadQuoted 34 false r) (hle : ∀ c ∈ r, c ≤ 0x10FFFF) :
    At F P true false none cm (34 :: r) [] := by
  refine at_start (f := none) (as := []) (fld := true) (x := fctx none [] []) (h := .shortField) (plainStart_of (.inl (by decide)) P) rfl ?_
  exact t_badQuoted h0 (.inl rfl) (quoting_short (isField := true) (isClob := false) (h := .shortField) (fun _ _ => rfl) rfl) hb hle ⟨rfl, rfl, rfl⟩ rfl

theorem at_badSymbol (h0 : Fate.o = some .ionException) (hb : TextSpec.BadQuoted 39 false r) (hle : ∀ c ∈ r, c ≤ 0x10FFFF) :
    At F P fld false (childOf f as) cm (39 :: r) [] := by
  refine at_start (x := dec f as) (h := .quote1 fld) (plain_of_idStart (.inr (.inr rfl)) P) (by cases fld <;> simp [fieldTable, valueTable]) ?_
  exact t_badQuoted h0 (.inr rfl) (quoting_symbol (f := f) (as := as) (fld := fld)) hb hle (.inr ⟨rfl, rfl⟩) rfl

theorem at_badClob (h0 : Fate.o = some .ionException) {w : List Nat} (hw : ∀ c ∈ w, isWs c = true) (hb : TextSpec.BadQuoted 34 true r) (hle : ∀ c ∈ r, c ≤ 0x10FFFF) :
    At F P false false (childOf f as) cm (123 :: 123 :: (w ++ 34 :: r)) [] := by
  refine at_lobStart (t_lobBlank hw ?_)
  refine t_imm (x' := sctx f as .clob []) (h' := .shortClob) (b' := false) rfl rfl rfl (by simp) ?_
  exact t_badQuoted h0 (.inl rfl) (quoting_short (isField := false) (isClob := true) (h := .shortClob) (fun _ _ => rfl) rfl) hb hle ⟨rfl, rfl, rfl⟩ rfl

/-! ## Long strings -/

theorem t_badLong (h0 : Fate.o = some .ionException) {clob : Bool} (hfc : fld = true → clob = false) (hb : TextSpec.BadLong clob r) : (∀ c ∈ r, c ≤ 0x10FFFF) →
    ∀ {v : List Nat} {x : Ctx} {first b : Bool}, LCtx fld clob f as v x → x.quoted = true → T F P fld x (.long fld clob 0 true first) false b r [] := by
  have henv : ∀ {x : Ctx} {cm cf : Bool} {pc : Pc}, St.env ⟨P.outer, P.ty, fld, false, cm, cf, some x, pc⟩ = P.env := rfl
  induction hb with
  | cut n hn =>
    intro hle v x first b hx hq
    have := t_longData (F := F) (P := P) (r := []) (es := []) (n := n) (m := 0) (first := first) (b := b) (by omega) hx hq
      fun x first b hx hq => t_cutQ h0 (by simp [hq]) rfl
    simpa using this
  | char n bs rest c hn hc _ ih =>
    intro hle v x first b hx hq
    refine t_longData (m := 0) (by omega) hx hq fun x first b hx hq => ?_
    rw [Nat.zero_add]
    have hx' := (hx.selfDelim first).extend (List.replicate n 39 ++ [c])
    refine t_char (x' := (if first then x else { x with selfDelim := false }).extend fld (List.replicate n 39 ++ [c])) (h' := .long fld clob 0 true false) (by simp [hq]) rfl
      (by rw [hx.clob_iff hfc]; exact hc) (fun esc hesc => ?_) (ih (fun c hc => hle c (by simp [hc])) hx' ?_)
    · have hcl : clob = true → x.ionType = some .clob := by intro h; rw [hx.ionType, h]; rfl
      obtain ⟨h1, h2⟩ := long_char_ok (clob := clob) (isChar_le hc) (fun he => by
        have := hesc he
        exact ⟨this.1, this.2.1, fun hc => this.2.2 (hcl hc)⟩)
      simp only [handle, onLong, if_neg h1, if_true, h2, Bool.false_eq_true, if_false, and_false]
    · cases first <;> cases fld <;> exact hq
  | newline n nl rest hn hnl _ ih =>
    intro hle v x first b hx hq
    refine t_longData (m := 0) (by omega) hx hq fun x first b hx hq => ?_
    rw [Nat.zero_add]
    have hx' := (hx.selfDelim first).extend (List.replicate n 39 ++ [10])
    have hq' : ((if first then x else { x with selfDelim := false }).extend fld (List.replicate n 39 ++ [10])).quoted = true := by
      cases first <;> cases fld <;> exact hq
    have hr := ih (fun c hc => hle c (by simp [hc])) hx' hq' (first := false) (b := false)
    have hh : handle F P.env x (.long fld clob n true first) { code := 10 } =
        .ok { ctx := (if first then x else { x with selfDelim := false }).extend fld (List.replicate n 39 ++ [10]), res := .imm (.long fld clob 0 true false) } := by
      have h3 : badQuoted true clob { code := 10 } = false := by simp [badQuoted, isWs, isNewline]
      simp only [handle, onLong, h3, show ¬ (10 : Nat) = 39 from by decide, false_and, if_false, if_true, Bool.false_eq_true, and_false]
    by_cases hne : rest = []
    · subst hne
      intro cm cf _
      refine events_go ?_
      simp only [next]
      rw [onToken_code (by simp [hq]) rfl, List.append_nil]
      have hk : ∀ l, Run F l (onChar F ⟨P.outer, P.ty, fld, false, cm, cf, some x, .token (.long fld clob n true first) false⟩ x (.long fld clob n true first) (some { code := 10 })) [] [] := by
        intro l
        simp only [onChar, Option.getD_some, henv, hh, onRes, Option.map_some]
        exact run_go (hr _ _ (by simp))
      have h10 : isLowSurrogate 10 = false ∧ isHighSurrogate 10 = false := by decide
      have h13 : isLowSurrogate 13 = false ∧ isHighSurrogate 13 = false := by decide
      rcases hnl with rfl | rfl | ⟨rfl, _⟩
      · refine run_read ?_
        simp only [h10.1, h10.2, show (10 : Nat) ≠ 92 from by decide, newline, show (10 : Nat) ≠ 13 from by decide, Bool.false_eq_true, if_false]
        exact hk _
      · refine run_read ?_
        simp only [h13.1, h13.2, show (13 : Nat) ≠ 92 from by decide, newline, Bool.false_eq_true, if_false, if_true]
        refine run_read ?_
        simp only [if_true]
        exact hk _
      · refine run_read ?_
        simp only [h13.1, h13.2, show (13 : Nat) ≠ 92 from by decide, newline, Bool.false_eq_true, if_false, if_true]
        exact run_cut h0
    · refine t_break (by simp [hq]) rfl hnl (fun r' hr' => ?_) hne hh hr
      have := hle EOF (by rw [hr']; simp)
      simp [EOF] at this
  | continued n nl rest hn hnl _ ih =>
    intro hle v x first b hx hq
    refine t_longData (m := 0) (by omega) hx hq fun x first b hx hq => ?_
    rw [Nat.zero_add]
    have hx' := (hx.selfDelim first).extend (List.replicate n 39 ++ [])
    have hq' : ((if first then x else { x with selfDelim := false }).extend fld (List.replicate n 39 ++ [])).quoted = true := by
      cases first <;> cases fld <;> exact hq
    have hr := ih (fun c hc => hle c (by simp [hc])) hx' hq' (first := false) (b := false)
    have hh : handle F P.env x (.long fld clob n true first) { code := 10, esc := true, nl := true } =
        .ok { ctx := (if first then x else { x with selfDelim := false }).extend fld (List.replicate n 39 ++ []), res := .imm (.long fld clob 0 true false) } := by
      have h3 : badQuoted true clob { code := 10, esc := true, nl := true } = false := by simp [badQuoted, isWs, isNewline]
      simp only [handle, onLong, h3, show ¬ (10 : Nat) = 39 from by decide, show isNewline 10 = true from rfl, false_and, if_false, if_true, Bool.false_eq_true, and_self]
    by_cases hne : rest = []
    · subst hne
      intro cm cf _
      refine events_go ?_
      simp only [next]
      rw [onToken_code (by simp [hq]) rfl, List.append_nil]
      have hk : ∀ l, Run F l (onChar F ⟨P.outer, P.ty, fld, false, cm, cf, some x, .token (.long fld clob n true first) false⟩ x (.long fld clob n true first) (some { code := 10, esc := true, nl := true })) [] [] := by
        intro l
        simp only [onChar, Option.getD_some, henv, hh, onRes, Option.map_some]
        exact run_go (hr _ _ (by simp))
      have h92 : isLowSurrogate 92 = false ∧ isHighSurrogate 92 = false := by decide
      refine run_read ?_
      simp only [h92.1, h92.2, Bool.false_eq_true, if_false, if_true, escapeSeq]
      rcases hnl with rfl | rfl | ⟨rfl, _⟩
      · refine run_read ?_
        simp only [show (10 : Nat) ≠ 117 from by decide, show (10 : Nat) ≠ 120 from by decide, show (10 : Nat) ≠ 85 from by decide, false_and, if_false,
          show commonEscape 10 = none from rfl, show isNewline 10 = true from rfl, if_true, newline, show (10 : Nat) ≠ 13 from by decide]
        exact hk _
      · refine run_read ?_
        simp only [show (13 : Nat) ≠ 117 from by decide, show (13 : Nat) ≠ 120 from by decide, show (13 : Nat) ≠ 85 from by decide, false_and, if_false,
          show commonEscape 13 = none from rfl, show isNewline 13 = true from rfl, if_true, newline]
        refine run_read ?_
        simp only [if_true]
        exact hk _
      · refine run_read ?_
        simp only [show (13 : Nat) ≠ 117 from by decide, show (13 : Nat) ≠ 120 from by decide, show (13 : Nat) ≠ 85 from by decide, false_and, if_false,
          show commonEscape 13 = none from rfl, show isNewline 13 = true from rfl, if_true, newline]
        exact run_cut h0
    · refine t_continued (by simp [hq]) rfl hnl (fun r' hr' => ?_) hne hh hr
      have := hle EOF (by rw [hr']; simp)
      simp [EOF] at this
  | bad n rest hn hb =>
    intro hle v x first b hx hq
    refine t_longData (m := 0) (by omega) hx hq fun x first b hx hq => ?_
    rw [Nat.zero_add]
    intro cm cf _
    refine events_go ?_
    simp only [next]
    rw [onToken_code (by simp [hq]) rfl, hx.clob_iff hfc]
    refine run_badChar h0 hb fun l c r hc => ?_
    have h3 : handle F P.env x (.long fld clob n true first) { code := c } = .error .ionException := by
      have h4 : ¬ c = 39 := by omega
      have h5 : isWs c = false := by
        rcases hc with ⟨h5, h6⟩ | ⟨_, h5, h6⟩
        · rw [Bool.eq_false_iff]
          intro hw
          simp only [isWs, isWsNotNl, isNewline, Bool.or_eq_true, decide_eq_true_eq] at hw
          simp only [TextSpec.IsSpace] at h6
          omega
        · simp only [isWs, isWsNotNl, isNewline, Bool.or_eq_false_iff, decide_eq_false_iff_not]
          omega
      have h6 : badQuoted true clob { code := c } = true := by
        rcases hc with ⟨h6, _⟩ | ⟨rfl, h6, _⟩
        · simp [badQuoted, h5, h6]
        · simp [badQuoted, h5, h6]
      simp only [handle, onLong, h4, false_and, if_false, if_true, h6]
    simp only [onChar, Option.getD_some, henv, h3]
    exact run_err h0

theorem t_badLongs (h0 : Fate.o = some .ionException) {clob : Bool} (hfc : fld = true → clob = false) {s : List Nat} (hb : TextSpec.BadLongs clob s) : (∀ c ∈ s, c ≤ 0x10FFFF) →
    ∃ s', s = TextSpec.quotes3 ++ s' ∧ ∀ {v : List Nat} {x : Ctx} {first b : Bool}, LCtx fld clob f as v x → x.quoted = true →
      T F P fld x (.long fld clob 0 true first) false b s' [] := by
  induction hb with
  | one r hr => exact fun hle => ⟨_, rfl, fun hx hq => t_badLong h0 hfc hr (fun c hc => hle c (by simp [hc])) hx hq⟩
  | more bs g rest t hb hg hcl _ ih =>
    intro hle
    obtain ⟨s', rfl, h1⟩ := ih fun c hc => hle c (by simp [hc])
    refine ⟨_, rfl, fun hx hq => ?_⟩
    refine t_longChars hfc hb hx hq fun x hx hq => t_longGap hg hcl (fun x hx hq => ?_) hx hq
    exact t_longMore hx hq fun x hx hq => h1 hx hq

theorem at_badLong (h0 : Fate.o = some .ionException) {s : List Nat} (hb : TextSpec.BadLongs false s) (hle : ∀ c ∈ s, c ≤ 0x10FFFF) : At F P false false (childOf f as) cm s [] := by
  obtain ⟨s', rfl, ht⟩ := t_badLongs (F := F) (P := P) (fld := false) (f := f) (as := as) h0 (by simp) hb hle
  refine at_value (x := dec f as) (h := .quote1 false) (q := true) (plain_of_idStart (.inr (.inr rfl)) P) rfl rfl ?_
  refine t_quoteImm (x' := (dec f as).setType (some .symbol)) (h' := .quote2 false) (b' := false) (.inr rfl) rfl rfl (by simp [handle]) (by simp) ?_
  exact t_imm (x' := sctx f as .string []) (h' := .long false false 0 true true) (b' := false) rfl rfl rfl (by simp) (ht ⟨rfl, rfl, rfl, rfl, by simp, fun _ => rfl⟩ rfl)

theorem at_badLongField (h0 : Fate.o = some .ionException) {s : List Nat} (hb : TextSpec.BadLongs false s) (hle : ∀ c ∈ s, c ≤ 0x10FFFF) : At F P true false none cm s [] := by
  obtain ⟨s', rfl, ht⟩ := t_badLongs (F := F) (P := P) (fld := true) (f := none) (as := []) h0 (by simp) hb hle
  refine at_start (f := none) (as := []) (fld := true) (x := dec none []) (h := .quote1 true) (plain_of_idStart (.inr (.inr rfl)) P) rfl ?_
  refine t_quoteImm (x' := (dec none []).setType (some .symbol)) (h' := .quote2 true) (b' := false) (.inr rfl) rfl rfl (by simp [handle]) (by simp) ?_
  exact t_imm (x' := { fctx none [] [] with ionType := some .symbol }) (h' := .long true false 0 true true) (b' := false) rfl rfl rfl (by simp)
    (ht ⟨rfl, rfl, rfl, rfl, fun _ => ⟨rfl, rfl, rfl⟩, by simp⟩ rfl)

theorem at_badLongClob (h0 : Fate.o = some .ionException) {w s : List Nat} (hw : ∀ c ∈ w, isWs c = true) (hb : TextSpec.BadLongs true s) (hle : ∀ c ∈ s, c ≤ 0x10FFFF) :
    At F P false false (childOf f as) cm (123 :: 123 :: (w ++ s)) [] := by
  obtain ⟨s', rfl, ht⟩ := t_badLongs (F := F) (P := P) (fld := false) (f := f) (as := as) h0 (by simp) hb hle
  refine at_lobStart (t_lobBlank hw ?_)
  refine t_imm (x' := sctx f as .clob []) (h' := .lobStart 1) (b' := false) rfl rfl rfl (by simp) ?_
  refine t_quoteImm (x' := sctx f as .clob []) (h' := .lobStart 2) (b' := false) (.inr rfl) rfl rfl rfl (by simp) ?_
  exact t_quoteImm (x' := sctx f as .clob []) (h' := .long false true 0 true true) (b' := false) (.inr rfl) rfl rfl rfl (by simp) (ht ⟨rfl, rfl, rfl, rfl, by simp, fun _ => rfl⟩ rfl)
end
end Ion.TextReader
