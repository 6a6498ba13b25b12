import Verif.TextScalars
import Verif.TimestampSpec
set_option linter.unusedSimpArgs false
/-!
# Timestamps, as the text reader reads them
-/
namespace Ion.TextReader
open Ion
variable [Fate]

omit [Fate] in
theorem digit48 (n : Nat) : isDigit (48 + n % 10) = true := by simp [isDigit]; omega

omit [Fate] in
theorem decFixed_digits : ∀ (w n : Nat), TextSpec.Digits (decFixed w n) ∧ (decFixed w n).length = w := by
  intro w
  induction w with
  | zero => intro n; simp [decFixed, TextSpec.Digits]
  | succ w ih =>
    intro n
    obtain ⟨h1, h2⟩ := ih (n / 10)
    refine ⟨?_, by simp [decFixed, h2]⟩
    intro c hc
    simp only [decFixed, List.mem_append, List.mem_singleton] at hc
    rcases hc with hc | rfl
    · exact h1 c hc
    · exact ⟨by omega, by omega⟩

omit [Fate] in
theorem decNum_snoc (l : List Nat) (c : Nat) : TextSpec.decNum (l ++ [c]) = 10 * TextSpec.decNum l + (c - 48) := by
  simp [TextSpec.decNum]

omit [Fate] in
theorem decNum_decFixed : ∀ (w n : Nat), n < 10 ^ w → TextSpec.decNum (decFixed w n) = n := by
  intro w
  induction w with
  | zero => intro n hn; simp at hn; subst hn; rfl
  | succ w ih =>
    intro n hn
    have hn' : n / 10 < 10 ^ w := by rw [Nat.pow_succ] at hn; omega
    rw [decFixed, decNum_snoc, ih _ hn']
    omega

omit [Fate] in
theorem parseInt_decFixed {w n : Nat} (hw : w ≠ 0) (hn : n < 10 ^ w) : parseInt (decFixed w n) = .ok (n : Int) := by
  obtain ⟨h1, h2⟩ := decFixed_digits w n
  have hne : decFixed w n ≠ [] := by intro h0; rw [h0] at h2; simp at h2; omega
  rw [parseInt_digits hne h1, decNum_decFixed w n hn]

omit [Fate] in
theorem decFixed2 (n : Nat) : decFixed 2 n = [48 + n / 10 % 10, 48 + n % 10] := by simp [decFixed]

section
variable {F : FloatText} {P : Loc} {fld : Bool} {x x' : Ctx} {h h' : H} {q b b' : Bool} {r g : List Nat} {es : List IonEvent} {cm : Bool} {c : Nat}
  {f : Option SymbolToken} {as : List SymbolToken} {t : Tok}

/-- The characters lead from one state of the timestamp handler to another. -/
structure TsGo (s : TsState) (cs : List Nat) (s' : TsState) : Prop where
  go : ∀ {F : FloatText} {P : Loc} {f : Option SymbolToken} {as : List SymbolToken} {y r : List Nat} {es : List IonEvent},
    T F P false (nctx f as .timestamp y) (.ts s') false true r es → T F P false (nctx f as .timestamp y) (.ts s) false true (cs ++ r) es

theorem TsGo.append {s s' s'' : TsState} {cs ds : List Nat} (h1 : TsGo s cs s') (h2 : TsGo s' ds s'') : TsGo s (cs ++ ds) s'' := by
  constructor
  intro F P f as y r es hr
  rw [List.append_assoc]
  exact h1.go (h2.go hr)

theorem TsGo.nil {s : TsState} : TsGo s [] s := ⟨fun hr => hr⟩

theorem TsGo.one {s s' : TsState} {c : Nat} (h : ∀ v x, onTs v s x { code := c } = .ok { ctx := x, res := .imm (.ts s') }) : TsGo s [c] s' := by
  constructor
  intro F P f as y r es hr
  exact t_imm (x' := nctx f as .timestamp y) (h' := .ts s') rfl rfl (h _ _) (fun _ => rfl) hr

theorem TsGo.cons {s s' s'' : TsState} {c : Nat} {cs : List Nat} (h1 : TsGo s [c] s') (h2 : TsGo s' cs s'') : TsGo s (c :: cs) s'' :=
  TsGo.append h1 h2

/-- A digit. -/
theorem tsGo_digit {s s' : TsState} {c : Nat} (hc : isDigit c = true) (hn : s.nxt.has c = true) (h : tsDigit { s with canTerminate := false } c = .ok s') : TsGo s [c] s' := by
  refine TsGo.one fun v x => ?_
  have key : ∀ c < 128, isDigit c = true → isTerm c = false ∧ c ≠ EOF ∧ c ≠ 90 ∧ c ≠ 84 ∧ c ≠ 45 ∧ c ≠ 58 ∧ c ≠ 43 ∧ c ≠ 46 := by decide +kernel
  have hlt : c < 128 := by
    simp only [isDigit, Bool.and_eq_true, decide_eq_true_eq] at hc
    omega
  obtain ⟨h1, h2, h3, h4, h5, h6, h7, h8⟩ := key c hlt hc
  simp only [onTs, hn, h1, h2, h3, h4, h5, h6, h7, h8, decide_false, Bool.and_false, Bool.not_true, Bool.false_and, Bool.false_eq_true, if_false, Bool.or_self, hc, if_true, h]

/-- A delimiter. -/
theorem tsGo_delim {s : TsState} {c : Nat} (hc : c = 45 ∨ c = 58 ∨ c = 43 ∨ c = 46) (hn : s.nxt.has c = true) :
    TsGo s [c] { s with prev := c, nxt := .digits, canTerminate := false } := by
  refine TsGo.one fun v x => ?_
  have h1 : isTerm c = false ∧ c ≠ EOF ∧ c ≠ 90 ∧ c ≠ 84 ∧ (decide (c = 45) || decide (c = 58) || decide (c = 43) || decide (c = 46)) = true := by
    rcases hc with rfl | rfl | rfl | rfl <;> decide
  obtain ⟨h1, h2, h3, h4, h5⟩ := h1
  simp only [onTs, hn, h1, h2, h3, h4, h5, decide_false, Bool.and_false, Bool.not_true, Bool.false_and, Bool.false_eq_true, if_false, Bool.or_self, if_true]

theorem tsGo_T {s : TsState} (hn : s.nxt.has 84 = true) : TsGo s [84] { s with prev := 84, nxt := .digitsTerm, canTerminate := true } := by
  refine TsGo.one fun v x => ?_
  have h1 : isTerm 84 = false := by decide
  simp [onTs, hn, h1, EOF]

theorem tsGo_Z {s : TsState} (hn : s.nxt.has 90 = true) :
    TsGo s [90] { s with prev := 90, nxt := .term, canTerminate := true, tokens := { s.tokens with offHour := some [48], offMinute := some [48] } } := by
  refine TsGo.one fun v x => ?_
  have h1 : isTerm 90 = false := by decide
  simp [onTs, hn, h1, EOF, TsTokens.upd]

/-- Two digits after a delimiter: month, day, hour, minute or second. -/
theorem tsGo_two {s : TsState} {n : Nat} (hn : n < 100) {k : Nat} {nx : TsNext} {ct : Bool}
    (hk : (k, nx, ct) ∈ [(1, .yearDelim, false), (2, .tTerm, true), (3, .colon, false), (4, .offColon, false), (5, .offDot, false)])
    (hs : s.state + 1 = k) (hp : s.prev = 45 ∨ s.prev = 58 ∨ s.prev = 84) (hp2 : s.state > 1 → s.prev ≠ 45) (hx : s.nxt = .digits ∨ s.nxt = .digitsTerm) :
    TsGo s (decFixed 2 n) ⟨48 + n % 10, k, nx, s.tokens.upd k fun _ => some (decFixed 2 n), ct⟩ := by
  rw [decFixed2]
  have d1 := digit48 (n / 10)
  have d2 := digit48 n
  generalize 48 + n / 10 % 10 = a at d1 ⊢
  generalize 48 + n % 10 = b at d2 ⊢
  obtain ⟨prev, state, nxt, tok, can⟩ := s
  simp only at hs hp hp2 hx
  have e1 : TsGo ⟨prev, state, nxt, tok, can⟩ [a] ⟨a, k, nxt, tok.upd k fun _ => some [a], false⟩ := by
    refine tsGo_digit d1 ?_ ?_
    · rcases hx with rfl | rfl <;> simp [TsNext.has, d1]
    · have h43 : prev ≠ 43 := by omega
      have h6 : state + 1 ≠ 6 := by
        simp only [List.mem_cons, Prod.mk.injEq, List.not_mem_nil, or_false] at hk
        omega
      have h45 : ¬ (state > 1 ∧ prev = 45) := fun hh => hp2 hh.1 hh.2
      have hor : prev = 45 ∨ prev = 58 ∨ prev = 46 ∨ prev = 84 := by omega
      simp only [tsDigit, h43, h45, or_self, if_false, hor, if_true, h6, hs]
      simp only [List.mem_cons, Prod.mk.injEq, List.not_mem_nil, or_false] at hk
      rcases hk with ⟨rfl, _⟩ | ⟨rfl, _⟩ | ⟨rfl, _⟩ | ⟨rfl, _⟩ | ⟨rfl, _⟩ <;> simp [TsTokens.upd]
  refine TsGo.cons e1 (tsGo_digit d2 ?_ ?_)
  · rcases hx with rfl | rfl <;> simp [TsNext.has, d2]
  · obtain ⟨_, _, _, h46, h45, h43, _⟩ := digit_not d1
    have h84 : a ≠ 84 ∧ a ≠ 58 := by
      simp only [isDigit, Bool.and_eq_true, decide_eq_true_eq] at d1
      omega
    simp only [tsDigit, h46, h45, h43, h84.1, h84.2, or_self, and_false, if_false, d1, if_true]
    simp only [List.mem_cons, Prod.mk.injEq, List.not_mem_nil, or_false] at hk
    rcases hk with ⟨rfl, rfl, rfl⟩ | ⟨rfl, rfl, rfl⟩ | ⟨rfl, rfl, rfl⟩ | ⟨rfl, rfl, rfl⟩ | ⟨rfl, rfl, rfl⟩ <;> simp [TsTokens.upd]

/-- The digits of the fraction. -/
theorem tsGo_frac1 {tok : TsTokens} {fs : List Nat} (hf : TextSpec.Digits fs) : ∀ {p : Nat} {v : List Nat}, isDigit p = true →
    ∃ p', TsGo ⟨p, 6, .digitsOff, { tok with fraction := some v }, false⟩ fs ⟨p', 6, .digitsOff, { tok with fraction := some (v ++ fs) }, false⟩ := by
  induction fs with
  | nil => intro p v hp; exact ⟨p, by simpa using TsGo.nil⟩
  | cons d fs ih =>
    intro p v hp
    have d1 := isDigit_iff.2 (hf d (by simp))
    obtain ⟨p', hg⟩ := ih (fun e he => hf e (by simp [he])) (p := d) (v := v ++ [d]) d1
    refine ⟨p', TsGo.cons (tsGo_digit (s' := ⟨d, 6, .digitsOff, { tok with fraction := some (v ++ [d]) }, false⟩) d1 (by simp [TsNext.has, d1]) ?_) (by simpa using hg)⟩
    obtain ⟨_, _, _, h46, h45, h43, _⟩ := digit_not hp
    have h84 : p ≠ 84 ∧ p ≠ 58 := by
      simp only [isDigit, Bool.and_eq_true, decide_eq_true_eq] at hp
      omega
    simp only [tsDigit, h46, h45, h43, h84.1, h84.2, or_self, and_false, if_false, hp, if_true]
    simp [TsTokens.upd]

theorem tsGo_frac {tok : TsTokens} {fs : List Nat} (hne : fs ≠ []) (hf : TextSpec.Digits fs) {p : Nat} :
    ∃ p', TsGo ⟨p, 5, .offDot, tok, false⟩ (46 :: fs) ⟨p', 6, .digitsOff, { tok with fraction := some fs }, false⟩ := by
  cases fs with
  | nil => exact absurd rfl hne
  | cons d fs =>
    have d1 := isDigit_iff.2 (hf d (by simp))
    obtain ⟨p', hg⟩ := tsGo_frac1 (tok := tok) (fun e he => hf e (by simp [he]) : TextSpec.Digits fs) (v := [d]) d1
    refine ⟨p', TsGo.cons (tsGo_delim (.inr (.inr (.inr rfl))) rfl) (TsGo.cons (tsGo_digit (s' := ⟨d, 6, .digitsOff, { tok with fraction := some [d] }, false⟩) d1 d1 ?_) hg)⟩
    simp [tsDigit, TsTokens.upd]

/-- The offset. -/
theorem tsGo_offset {s : TsState} (hst : s.state > 1) (hx : ∀ c, c = 90 ∨ c = 43 ∨ c = 45 → s.nxt.has c = true) {c : Nat} (hc : c = 43 ∨ c = 45) {h m : Nat} :
    ∃ p, TsGo s (c :: (decFixed 2 h ++ 58 :: decFixed 2 m))
      ⟨p, 8, .term, { s.tokens with offHour := some ((if c = 45 then [45] else []) ++ decFixed 2 h), offMinute := some (decFixed 2 m) }, true⟩ := by
  rw [decFixed2, decFixed2]
  have d1 := digit48 (h / 10)
  have d2 := digit48 h
  have d3 := digit48 (m / 10)
  have d4 := digit48 m
  generalize 48 + h / 10 % 10 = a1 at d1 ⊢
  generalize 48 + h % 10 = a2 at d2 ⊢
  generalize 48 + m / 10 % 10 = a3 at d3 ⊢
  generalize 48 + m % 10 = a4 at d4 ⊢
  have hd : ∀ {p}, isDigit p = true → p ≠ 46 ∧ p ≠ 45 ∧ p ≠ 43 ∧ p ≠ 84 ∧ p ≠ 58 := by
    intro p hp
    simp only [isDigit, Bool.and_eq_true, decide_eq_true_eq] at hp
    omega
  obtain ⟨a11, a12, a13, a14, a15⟩ := hd d1
  obtain ⟨a31, a32, a33, a34, a35⟩ := hd d3
  refine ⟨a4, ?_⟩
  obtain ⟨prev, state, nxt, tok, can⟩ := s
  simp only at hst hx ⊢
  refine TsGo.cons (tsGo_delim (by omega) (hx c (.inr hc))) ?_
  refine TsGo.cons (s' := ⟨a1, 7, .digits, { tok with offHour := some ((if c = 45 then [45] else []) ++ [a1]) }, false⟩) (tsGo_digit d1 d1 ?_) ?_
  · rcases hc with rfl | rfl <;> simp [tsDigit, TsTokens.upd, hst]
  refine TsGo.cons (s' := ⟨a2, 7, .colon, { tok with offHour := some ((if c = 45 then [45] else []) ++ [a1, a2]) }, false⟩) (tsGo_digit d2 d2 ?_) ?_
  · simp [tsDigit, TsTokens.upd, a11, a12, a13, a14, a15, d1]
  refine TsGo.cons (tsGo_delim (.inr (.inl rfl)) rfl) ?_
  refine TsGo.cons (s' := ⟨a3, 8, .digits, { tok with offHour := some ((if c = 45 then [45] else []) ++ [a1, a2]), offMinute := some [a3] }, false⟩) (tsGo_digit d3 d3 ?_) ?_
  · simp [tsDigit, TsTokens.upd]
  refine tsGo_digit d4 d4 ?_
  simp [tsDigit, TsTokens.upd, a31, a32, a33, a34, a35, d3]

/-! ## The year -/

theorem t_tsZero {ds : List Nat} (hd : TextSpec.Digits ds) : ∀ {v : List Nat}, T F P false (nctx f as .timestamp (v ++ ds)) .tsZero false true r es →
    T F P false (nctx f as .timestamp v) .tsZero false true (ds ++ r) es := by
  induction ds with
  | nil => intro v hr; simpa using hr
  | cons d ds ih =>
    intro v hr
    have h1 := isDigit_iff.2 (hd d (by simp))
    have h2 : d ≠ 45 ∧ d ≠ 84 := by
      simp only [isDigit, Bool.and_eq_true, decide_eq_true_eq] at h1
      omega
    refine t_imm (x' := nctx f as .timestamp (v ++ [d])) (h' := .tsZero) rfl rfl ?_ (fun _ => rfl) (ih (fun e he => hd e (by simp [he])) (by simpa using hr))
    simp only [handle, h1, h2.1, h2.2, or_self, if_false, if_true]
    rfl

/-- The year and the delimiter after it. -/
theorem at_year {y : Nat} {c : Nat} (hc : c = 45 ∨ c = 84)
    (hr : T F P false (nctx f as .timestamp (decFixed 4 y)) (.ts ⟨c, 0, if c = 84 then .digitsTerm else .digits, {}, c = 84⟩) false true r es) :
    At F P false false (childOf f as) cm (decFixed 4 y ++ c :: r) es := by
  obtain ⟨h1, h2⟩ := decFixed_digits 4 y
  generalize decFixed 4 y = ys at h1 h2 hr
  obtain ⟨d, ds, rfl⟩ : ∃ d ds, ys = d :: ds := by
    cases ys with
    | nil => simp at h2
    | cons d ds => exact ⟨d, ds, rfl⟩
  have hdig := isDigit_iff.2 (h1 d (by simp))
  have hds : TextSpec.Digits ds := fun e he => h1 e (by simp [he])
  have hcc : endsValue c = false ∧ isDigit c = false := by rcases hc with rfl | rfl <;> decide
  have hmk : ∀ ty, mkTimestamp c (nctx f as ty (d :: ds)) = .ok (nctx f as .timestamp (d :: ds), .ts ⟨c, 0, if c = 84 then .digitsTerm else .digits, {}, c = 84⟩) := by
    intro ty
    have hset : (nctx f as ty (d :: ds)).setType (some .timestamp) = nctx f as .timestamp (d :: ds) := by
      simp only [Ctx.setType, nctx]
      by_cases h : ty = .timestamp <;> simp [h, dec]
    have hl : (nctx f as .timestamp (d :: ds)).value.length = 4 := h2
    simp only [mkTimestamp, hset, hl, ne_eq, not_true_eq_false, if_false]
  by_cases h48 : d = 48
  · subst h48
    refine at_value (x := nctx f as .int [48]) (h := .zeroStart) (q := false) (plainStart_of (.inr (by decide)) P) rfl rfl ?_
    cases ds with
    | nil => simp at h2
    | cons d2 ds =>
      have hdig2 := isDigit_iff.2 (hds d2 (by simp))
      have hne : d2 ≠ 66 ∧ d2 ≠ 98 ∧ d2 ≠ 88 ∧ d2 ≠ 120 := by
        simp only [isDigit, Bool.and_eq_true, decide_eq_true_eq] at hdig2
        omega
      refine t_imm (x' := nctx f as .timestamp [48, d2]) (h' := .tsZero) rfl rfl ?_ (fun _ => rfl) (t_tsZero (fun e he => hds e (by simp [he])) ?_)
      · simp only [handle, (digit_not hdig2).1, Bool.false_eq_true, if_false, hne.1, hne.2.1, hne.2.2.1, hne.2.2.2, or_self, hdig2, if_true]
        rfl
      · refine t_imm (x' := nctx f as .timestamp (48 :: d2 :: ds)) (h' := .ts ⟨c, 0, if c = 84 then .digitsTerm else .digits, {}, c = 84⟩) rfl rfl ?_ (fun _ => rfl) hr
        simp only [handle, hc, if_true, List.cons_append, List.nil_append, hmk]
        rfl
  · refine at_value (x := nctx f as .int [d]) (h := .number) (q := false) (plainStart_of (.inr hdig) P) ?_ ?_ (t_numberDigits hds ?_)
    · have : d ≠ 45 ∧ d ≠ 43 ∧ d ≠ 48 ∧ d ≠ 123 ∧ d ≠ 40 ∧ d ≠ 91 ∧ d ≠ 39 ∧ d ≠ 34 ∧ d ≠ 36 := by
        simp only [isDigit, Bool.and_eq_true, decide_eq_true_eq] at hdig
        omega
      obtain ⟨n1, n2, n3, n4, n5, n6, n7, n8, n9⟩ := this
      simp only [valueTable, n1, n2, n3, n4, n5, n6, n7, n8, n9, if_false, hdig, if_true]
      rfl
    · have : d ≠ 39 ∧ d ≠ 34 := by
        simp only [isDigit, Bool.and_eq_true, decide_eq_true_eq] at hdig
        omega
      simp [this]
    · refine t_imm (x' := nctx f as .timestamp (d :: ds)) (h' := .ts ⟨c, 0, if c = 84 then .digitsTerm else .digits, {}, c = 84⟩) rfl rfl ?_ (fun _ => rfl) hr
      simp only [handle, hcc.1, hcc.2, Bool.false_eq_true, if_false, hc, if_true, List.singleton_append, hmk]
      rfl

/-! ## The end -/

theorem t_tsEnd {s : TsState} {y : List Nat} {v : PyVal} (hcan : s.canTerminate = true) (hx : ∀ c, isTerm c = true → s.nxt.has c = true)
    (hpv : parseTimestamp y s.tokens = .ok (some v)) (hv : VEnd P g r) (h : Rest F P r es) :
    T F P false (nctx f as .timestamp y) (.ts s) false true (g ++ r) (scalarEv f as P.outer.length .timestamp (some v) :: es) := by
  refine t_numEnd (ty := .timestamp) rfl rfl ?_ ⟨by simp [scalarEv], rfl⟩ hv h
  obtain ⟨_, _, _, _, _, _, _, hor⟩ := vends_facts _ hv.head
  generalize (g ++ r).headD EOF = c at hor ⊢
  have hp : parseTimestamp (nctx f as .timestamp y).value s.tokens = .ok (some v) := hpv
  have h1 : (!s.nxt.has c && !(s.canTerminate && decide (c = EOF))) = false := by
    rcases hor with rfl | hor
    · simp [hcan]
    · simp [hx c hor]
  have h2 : (isTerm c || (s.canTerminate && decide (c = EOF))) = true := by
    rcases hor with rfl | hor
    · simp [hcan]
    · simp [hor]
  simp only [handle, onTs, h1, h2, Bool.false_eq_true, if_false, if_true]
  simp only [hcan, Bool.not_true, Bool.false_eq_true, if_false, hp]
  rfl

/-! ## The value -/

omit [Fate] in
theorem parseTimestamp_eq {y : List Nat} {tk : TsTokens} {tz : Option Int} {ye mo d ho mi se : Nat} {fr : Option Dec} {t : Timestamp}
    (h1 : parseOffset tk = .ok tz) (h2 : parseInt y = .ok (ye : Int)) (h3 : intOr tk.month 1 = .ok mo) (h4 : intOr tk.day 1 = .ok d)
    (h5 : tk.hour.isSome = tk.minute.isSome) (h6 : intOr tk.hour 0 = .ok ho) (h7 : intOr tk.minute 0 = .ok mi) (h8 : intOr tk.second 0 = .ok se)
    (h9 : parseFraction tk = .ok fr) (h10 : Timestamp.new ⟨ye, mo, d, ho, mi, se, none, tz, some tk.precision, none, fr⟩ = .ok t) :
    parseTimestamp y tk = .ok (some (.timestamp (.ts t))) := by
  have h2' : intOr (some y) 0 = .ok ye := by simp [intOr, h2]
  simp [parseTimestamp, h1, h2', h3, h4, h5, h6, h7, h8, h9, h10, bind, Except.bind, pure, Except.pure]

omit [Fate] in
theorem new_of_value {t : Timestamp} {p : Precision} (h : Spec.IsTimeValue t p) (hf : Scalars.FracOk t.frac) {fr : Option Dec}
    (hfr : fr = if t.frac.coeff = 0 ∧ t.frac.exp = 0 then none else some t.frac) :
    Timestamp.new ⟨t.dt.year, t.dt.month, t.dt.day, t.dt.hour, t.dt.minute, t.dt.second, none, t.dt.tz, some p, none, fr⟩ = .ok t := by
  subst hfr
  have hn := Scalars.normalise_of_value h hf
  have hv := h.valid
  have hp := h.precision
  rw [Scalars.new_of_fields hf hn hv, ← hp]

omit [Fate] in
theorem intOr_fixed {n d : Nat} (hn : n < 100) : intOr (some (decFixed 2 n)) d = .ok n := by
  simp [intOr, parseInt_decFixed (w := 2) (by decide) (show n < 10 ^ 2 by omega)]

omit [Fate] in
theorem mem_decFixed {c w n : Nat} (hc : isDigit c = false) : c ∉ decFixed w n := by
  intro hm
  have := isDigit_iff.2 ((decFixed_digits w n).1 c hm)
  rw [hc] at this
  cases this

/-- The offset in the text is the offset of the value. -/
theorem tsGo_offsetText {s : TsState} {off : List Nat} {tz : Option Int} (hoff : TextSpec.IsOffsetText off tz) (hst : s.state > 1)
    (hx : ∀ c, c = 90 ∨ c = 43 ∨ c = 45 → s.nxt.has c = true) :
    ∃ s', TsGo s off s' ∧ s'.canTerminate = true ∧ (∀ c, isTerm c = true → s'.nxt.has c = true) ∧
      (∃ oh om, s'.tokens = { s.tokens with offHour := oh, offMinute := om }) ∧ parseOffset s'.tokens = .ok tz := by
  cases hoff with
  | unknown =>
    obtain ⟨p, hg⟩ := tsGo_offset hst hx (c := 45) (.inr rfl) (h := 0) (m := 0)
    exact ⟨_, hg, rfl, fun c hc => hc, ⟨_, _, rfl⟩, rfl⟩
  | utc => exact ⟨_, tsGo_Z (hx 90 (.inl rfl)), rfl, fun c hc => hc, ⟨_, _, rfl⟩, rfl⟩
  | plus h m hh hm =>
    obtain ⟨p, hg⟩ := tsGo_offset hst hx (c := 43) (.inl rfl) (h := h) (m := m)
    refine ⟨_, hg, rfl, fun c hc => hc, ⟨_, _, rfl⟩, ?_⟩
    have e1 := parseInt_decFixed (w := 2) (n := h) (by decide) (by omega)
    have e2 := parseInt_decFixed (w := 2) (n := m) (by decide) (by omega)
    have e3 : 45 ∉ decFixed 2 h := mem_decFixed (by decide)
    have e4 : ¬ ((h : Int) < -23 ∨ (h : Int) > 23) := by omega
    have e5 : ¬ ((m : Int) < -59 ∨ (m : Int) > 59) := by omega
    have e6 : offsetTZInfo ((h : Int) * 60 * minuteMicros + m * minuteMicros) = .ok ((60 * h + m : Nat) * 60000000) := by
      rw [offsetTZInfo, if_neg (by simp only [minuteMicros, dayMicros]; omega)]
      simp only [minuteMicros]
      exact congrArg Except.ok (by omega)
    have h43 : ¬ ((43 : Nat) = 45) := by decide
    simp only [parseOffset, h43, if_false, List.nil_append, e1, e2, e3, decide_false, Bool.false_and, Bool.false_eq_true, e4, e5, e6]
  | minus h m hh hm h0 =>
    obtain ⟨p, hg⟩ := tsGo_offset hst hx (c := 45) (.inr rfl) (h := h) (m := m)
    refine ⟨_, hg, rfl, fun c hc => hc, ⟨_, _, rfl⟩, ?_⟩
    have e1 : parseInt (45 :: decFixed 2 h) = .ok (-(h : Int)) := by
      rw [parseInt_neg (by simp [decFixed]) (decFixed_digits 2 h).1, decNum_decFixed 2 h (by omega)]
    have e2 := parseInt_decFixed (w := 2) (n := m) (by decide) (by omega)
    have e3 : 45 ∈ 45 :: decFixed 2 h := by simp
    have e0 : (decide (-(h : Int) = 0) && decide (-(m : Int) = 0)) = false := by
      simp only [Bool.and_eq_false_iff, decide_eq_false_iff_not]
      omega
    have e4 : ¬ (-(h : Int) < -23 ∨ -(h : Int) > 23) := by omega
    have e5 : ¬ (-(m : Int) < -59 ∨ -(m : Int) > 59) := by omega
    have e6 : offsetTZInfo (-(h : Int) * 60 * minuteMicros + -m * minuteMicros) = .ok (-((60 * h + m : Nat) * 60000000)) := by
      rw [offsetTZInfo, if_neg (by simp only [minuteMicros, dayMicros]; omega)]
      simp only [minuteMicros]
      exact congrArg Except.ok (by omega)
    simp only [parseOffset, if_true, List.singleton_append, e1, e2, e3, decide_true, Bool.true_and, e0, Bool.false_eq_true, if_false, e4, e5, e6]

omit [Fate] in
theorem numDigits_le {n : Nat} (h : n < 10 ^ 28) : numDigits n ≤ 28 := (numDigits_le_iff _ _ (by omega)).2 h

omit [Fate] in
theorem scaleb_digits {fs : List Nat} (h : TextSpec.decNum fs < 10 ^ 28) (hl : fs.length < 1000000) :
    (Dec.ofInt (TextSpec.decNum fs : Int)).scaleb Dec.defaultPrec (-(fs.length : Int)) = .ok ⟨false, TextSpec.decNum fs, -(fs.length : Int)⟩ := by
  have hnd := numDigits_le h
  have e1 : ¬ (((-(fs.length : Int)).natAbs : Int) > 2 * (Dec.emax + (Dec.defaultPrec : Nat))) := by
    simp only [Dec.emax, Dec.defaultPrec]; omega
  rw [Dec.scaleb, if_neg e1]
  have e2 : ({ Dec.ofInt (TextSpec.decNum fs : Int) with exp := (Dec.ofInt (TextSpec.decNum fs : Int)).exp + -(fs.length : Int) } : Dec) = ⟨false, TextSpec.decNum fs, -(fs.length : Int)⟩ := by
    simp only [Dec.ofInt, Dec.mk.injEq]
    refine ⟨by simp, by simp, by simp⟩
  rw [e2, Dec.fix_id _ _ (by decide) hnd]
  · simp only [Dec.emin, Dec.defaultPrec]; omega
  · simp only [Dec.emax]; omega

omit [Fate] in
theorem fracOk_zero : Scalars.FracOk ⟨false, 0, 0⟩ := by decide

/-- A timestamp. -/
theorem at_timestamp {t : Timestamp} {bs : List Nat} (ht : TextSpec.IsTimeText t bs) (hv : VEnd P g r) (h : Rest F P r es) :
    At F P false false (childOf f as) cm (bs ++ (g ++ r)) (scalarEv f as P.outer.length .timestamp (some (.timestamp (.ts t))) :: es) := by
  have hyear : ∀ {p}, Spec.IsTimeValue t p → parseInt (decFixed 4 t.dt.year) = .ok (t.dt.year : Int) := by
    intro p hp
    have := hp.valid.2.1
    exact parseInt_decFixed (by decide) (by omega)
  have hmo : ∀ {p}, Spec.IsTimeValue t p → t.dt.month < 100 := by
    intro p hp; have := hp.valid.2.2.2.1; omega
  have hday : ∀ {p}, Spec.IsTimeValue t p → t.dt.day < 100 := by
    intro p hp
    have h1 := hp.valid.2.2.2.2.2.1
    have h2 := (DateTime.daysInMonth_pos t.dt.year t.dt.month).2
    omega
  have hms : ∀ {p}, Spec.IsTimeValue t p → t.dt.hour < 100 ∧ t.dt.minute < 100 ∧ t.dt.second < 100 := by
    intro p hp
    obtain ⟨_, _, _, _, _, _, h1, h2, h3, _⟩ := hp.valid
    omega
  have hco : ∀ {p}, Spec.IsTimeValue t p → p ≠ .second → Scalars.FracOk t.frac ∧ (none : Option Dec) = if t.frac.coeff = 0 ∧ t.frac.exp = 0 then none else some t.frac := by
    intro p hp hs
    rw [hp.coarse hs]
    exact ⟨fracOk_zero, rfl⟩
  have one : intOr none 1 = .ok 1 := rfl
  have zero : intOr none 0 = .ok 0 := rfl
  cases ht with
  | year hp htz =>
    rw [List.append_assoc, List.singleton_append]
    refine at_year (.inr rfl) (t_tsEnd rfl (fun c hc => by simp [TsNext.has, hc]) ?_ hv h)
    have hc := hp.cut
    have e1 : t.dt.month = 1 := by rw [← hc]; rfl
    have e2 : t.dt.day = 1 := by rw [← hc]; rfl
    have e3 : t.dt.hour = 0 := by rw [← hc]; rfl
    have e4 : t.dt.minute = 0 := by rw [← hc]; rfl
    have e5 : t.dt.second = 0 := by rw [← hc]; rfl
    have hnew := new_of_value hp (hco hp (by decide)).1 (hco hp (by decide)).2
    rw [e1, e2, e3, e4, e5] at hnew
    exact parseTimestamp_eq (rfl : parseOffset {} = .ok none) (hyear hp) one one rfl zero zero zero rfl (htz ▸ hnew)
  | month hp htz =>
    simp only [List.append_assoc, List.cons_append, List.nil_append]
    refine at_year (.inl rfl) ?_
    refine (tsGo_two (hmo hp) (List.mem_cons_self) rfl (.inl rfl) (by simp) (.inl rfl)).go ?_
    refine (tsGo_T rfl).go (t_tsEnd rfl (fun c hc => by simp [TsNext.has, hc]) ?_ hv h)
    have hc := hp.cut
    have e2 : t.dt.day = 1 := by rw [← hc]; rfl
    have e3 : t.dt.hour = 0 := by rw [← hc]; rfl
    have e4 : t.dt.minute = 0 := by rw [← hc]; rfl
    have e5 : t.dt.second = 0 := by rw [← hc]; rfl
    have hnew := new_of_value hp (hco hp (by decide)).1 (hco hp (by decide)).2
    rw [e2, e3, e4, e5, htz] at hnew
    exact parseTimestamp_eq rfl (hyear hp) (intOr_fixed (hmo hp)) one rfl zero zero zero rfl hnew
  | day suf hp htz hsuf =>
    simp only [List.append_assoc, List.cons_append, List.nil_append]
    refine at_year (.inl rfl) ?_
    refine (tsGo_two (hmo hp) (List.mem_cons_self) rfl (.inl rfl) (by simp) (.inl rfl)).go ?_
    refine (tsGo_delim (.inl rfl) rfl).go ?_
    refine (tsGo_two (hday hp) (List.mem_cons_of_mem _ List.mem_cons_self) rfl (.inl rfl) (by simp) (.inl rfl)).go ?_
    have hc := hp.cut
    have e3 : t.dt.hour = 0 := by rw [← hc]; rfl
    have e4 : t.dt.minute = 0 := by rw [← hc]; rfl
    have e5 : t.dt.second = 0 := by rw [← hc]; rfl
    have hnew := new_of_value hp (hco hp (by decide)).1 (hco hp (by decide)).2
    rw [e3, e4, e5, htz] at hnew
    have hpt : parseTimestamp (decFixed 4 t.dt.year) { month := some (decFixed 2 t.dt.month), day := some (decFixed 2 t.dt.day) } = .ok (some (.timestamp (.ts t))) :=
      parseTimestamp_eq rfl (hyear hp) (intOr_fixed (hmo hp)) (intOr_fixed (hday hp)) rfl zero zero zero rfl hnew
    rcases hsuf with rfl | rfl
    · rw [List.nil_append]
      exact t_tsEnd rfl (fun c hc => by simp [TsNext.has, hc]) hpt hv h
    · exact (tsGo_T rfl).go (t_tsEnd rfl (fun c hc => by simp [TsNext.has, hc]) hpt hv h)
  | minute off hp hoff =>
    simp only [List.append_assoc, List.cons_append, List.nil_append]
    refine at_year (.inl rfl) ?_
    refine (tsGo_two (hmo hp) (List.mem_cons_self) rfl (.inl rfl) (by simp) (.inl rfl)).go ?_
    refine (tsGo_delim (.inl rfl) rfl).go ?_
    refine (tsGo_two (hday hp) (List.mem_cons_of_mem _ List.mem_cons_self) rfl (.inl rfl) (by simp) (.inl rfl)).go ?_
    refine (tsGo_T rfl).go ?_
    refine (tsGo_two (hms hp).1 (List.mem_cons_of_mem _ (List.mem_cons_of_mem _ List.mem_cons_self)) rfl (.inr (.inr rfl)) (by simp) (.inr rfl)).go ?_
    refine (tsGo_delim (.inr (.inl rfl)) rfl).go ?_
    refine (tsGo_two (hms hp).2.1 (List.mem_cons_of_mem _ (List.mem_cons_of_mem _ (List.mem_cons_of_mem _ List.mem_cons_self))) rfl (.inr (.inl rfl)) (by simp) (.inl rfl)).go ?_
    obtain ⟨s', hg, hcan, hx, ⟨oh, om, htok⟩, hpo⟩ := tsGo_offsetText
      (s := ⟨48 + t.dt.minute % 10, 4, .offColon, { month := some (decFixed 2 t.dt.month), day := some (decFixed 2 t.dt.day), hour := some (decFixed 2 t.dt.hour), minute := some (decFixed 2 t.dt.minute) }, false⟩)
      hoff (by simp) (by rintro c (rfl | rfl | rfl) <;> rfl)
    refine hg.go (t_tsEnd hcan hx ?_ hv h)
    have hc := hp.cut
    have e5 : t.dt.second = 0 := by rw [← hc]; rfl
    have hnew := new_of_value hp (hco hp (by decide)).1 (hco hp (by decide)).2
    rw [e5] at hnew
    rw [htok] at hpo ⊢
    exact parseTimestamp_eq hpo (hyear hp) (intOr_fixed (hmo hp)) (intOr_fixed (hday hp)) rfl (intOr_fixed (hms hp).1) (intOr_fixed (hms hp).2.1) zero rfl hnew
  | second frac off hp hfrac hoff =>
    simp only [List.append_assoc, List.cons_append, List.nil_append]
    refine at_year (.inl rfl) ?_
    refine (tsGo_two (hmo hp) (List.mem_cons_self) rfl (.inl rfl) (by simp) (.inl rfl)).go ?_
    refine (tsGo_delim (.inl rfl) rfl).go ?_
    refine (tsGo_two (hday hp) (List.mem_cons_of_mem _ List.mem_cons_self) rfl (.inl rfl) (by simp) (.inl rfl)).go ?_
    refine (tsGo_T rfl).go ?_
    refine (tsGo_two (hms hp).1 (List.mem_cons_of_mem _ (List.mem_cons_of_mem _ List.mem_cons_self)) rfl (.inr (.inr rfl)) (by simp) (.inr rfl)).go ?_
    refine (tsGo_delim (.inr (.inl rfl)) rfl).go ?_
    refine (tsGo_two (hms hp).2.1 (List.mem_cons_of_mem _ (List.mem_cons_of_mem _ (List.mem_cons_of_mem _ List.mem_cons_self))) rfl (.inr (.inl rfl)) (by simp) (.inl rfl)).go ?_
    refine (tsGo_delim (.inr (.inl rfl)) rfl).go ?_
    refine (tsGo_two (hms hp).2.2 (List.mem_cons_of_mem _ (List.mem_cons_of_mem _ (List.mem_cons_of_mem _ (List.mem_cons_of_mem _ List.mem_cons_self)))) rfl (.inr (.inl rfl)) (by simp) (.inl rfl)).go ?_
    -- the fraction
    have hfr : ∃ s' fo, TsGo ⟨48 + t.dt.second % 10, 5, .offDot, { month := some (decFixed 2 t.dt.month), day := some (decFixed 2 t.dt.day), hour := some (decFixed 2 t.dt.hour), minute := some (decFixed 2 t.dt.minute), second := some (decFixed 2 t.dt.second) }, false⟩
        frac s' ∧ s'.state > 1 ∧ (∀ c, c = 90 ∨ c = 43 ∨ c = 45 → s'.nxt.has c = true) ∧ s'.tokens = { month := some (decFixed 2 t.dt.month), day := some (decFixed 2 t.dt.day), hour := some (decFixed 2 t.dt.hour), minute := some (decFixed 2 t.dt.minute), second := some (decFixed 2 t.dt.second), fraction := fo } ∧
        Scalars.FracOk t.frac ∧ ∀ oh om, parseFraction { month := some (decFixed 2 t.dt.month), day := some (decFixed 2 t.dt.day), hour := some (decFixed 2 t.dt.hour), minute := some (decFixed 2 t.dt.minute), second := some (decFixed 2 t.dt.second), fraction := fo, offHour := oh, offMinute := om } =
          .ok (if t.frac.coeff = 0 ∧ t.frac.exp = 0 then none else some t.frac) := by
      generalize hfe : t.frac = fr at hfrac
      cases hfrac with
      | none => exact ⟨_, none, TsGo.nil, by simp, by rintro c (rfl | rfl | rfl) <;> rfl, rfl, fracOk_zero, fun _ _ => rfl⟩
      | digits fs hne hfs hlt hlen =>
        obtain ⟨p', hg⟩ := tsGo_frac hne hfs (p := 48 + t.dt.second % 10)
          (tok := { month := some (decFixed 2 t.dt.month), day := some (decFixed 2 t.dt.day), hour := some (decFixed 2 t.dt.hour), minute := some (decFixed 2 t.dt.minute), second := some (decFixed 2 t.dt.second) })
        refine ⟨_, some fs, hg, by simp, by rintro c (rfl | rfl | rfl) <;> rfl, rfl, ⟨hlt, by simp only; omega, by simp⟩, fun _ _ => ?_⟩
        have hl : fs.length ≠ 0 := by simpa using hne
        have hn0 : ¬ (TextSpec.decNum fs = 0 ∧ -(fs.length : Int) = 0) := by omega
        simp only [parseFraction, parseInt_digits hne hfs, scaleb_digits hlt hlen, if_neg hn0]
    obtain ⟨s1, fo, hg1, hs1, hx1, htok1, hfok, hpf⟩ := hfr
    refine hg1.go ?_
    obtain ⟨s', hg, hcan, hx, ⟨oh, om, htok⟩, hpo⟩ := tsGo_offsetText hoff hs1 hx1
    refine hg.go (t_tsEnd hcan hx ?_ hv h)
    have hnew := new_of_value hp hfok rfl
    rw [htok, htok1] at hpo ⊢
    exact parseTimestamp_eq hpo (hyear hp) (intOr_fixed (hmo hp)) (intOr_fixed (hday hp)) rfl (intOr_fixed (hms hp).1) (intOr_fixed (hms hp).2.1) (intOr_fixed (hms hp).2.2) (hpf _ _) hnew

end
end Ion.TextReader
