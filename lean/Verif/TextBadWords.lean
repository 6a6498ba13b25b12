import Verif.TextBadNumbers
set_option linter.unusedSimpArgs false
/-!
# Words that the text reader rejects

Identifiers, keywords, typed nulls, infinities and annotations that are none; clobs and blobs without their end.
-/
namespace Ion.TextReader
open Ion Ion.TextSpec
variable [Fate]

section
variable {F : FloatText} {P : Loc} {fld : Bool} {x x' : Ctx} {h h' : H} {r g : List Nat} {es : List IonEvent} {cm : Bool} {c : Nat}
  {f : Option SymbolToken} {as : List SymbolToken} {p : TextSpec.Place}

/-! ## Identifiers -/

/-- A character that neither continues nor ends an identifier. -/
structure BadCh (v : Env) (c : Nat) : Prop where
  id : isIdChar c = false
  ev : endsValue c = false
  ws : isWs c = false
  colon : c ≠ 58
  op : (v.inSexp && isOp c) = false

omit [Fate] in
theorem sexpView_iff (hp : Same P p) : P.env.inSexp = true ↔ p = some .sexp := by
  simp only [Env.inSexp, Loc.env, hp.ty, decide_eq_true_eq]
  rcases p with _ | t
  · simp
  · cases t <;> simp [Spec.CType.ty]

omit [Fate] in
theorem noOp (hp : Same P p) (h : p = some .sexp → ¬ OpChar c) : (P.env.inSexp && isOp c) = false := by
  rw [Bool.and_eq_false_iff]
  by_cases hs : p = some .sexp
  · exact .inr (Bool.eq_false_iff.2 fun h1 => h hs (isOp_iff.1 h1))
  · exact .inl (Bool.eq_false_iff.2 fun h1 => hs ((sexpView_iff hp).1 h1))

omit [Fate] in
theorem badCh (hp : Same P p) (h : BadAfter p c) (hle : c ≤ 0x10FFFF) : BadCh P.env c := by
  obtain ⟨h1, h2, h3, h4, h5⟩ := h
  have h6 := plain_not ⟨hle, h3⟩
  refine ⟨?_, h6.1, ?_, h4, noOp hp h5⟩
  · rw [Bool.eq_false_iff]
    intro hc
    simp only [isIdChar, Bool.or_eq_true, decide_eq_true_eq] at hc
    rcases hc with (hc | hc) | hc
    · exact h1 (idStart_iff.1 (.inl hc))
    · exact h2 (digit_iff.1 hc)
    · exact h1 (idStart_iff.1 (.inr hc))
  · rw [Bool.eq_false_iff]
    intro hw
    refine h3 (.inr (.inl ?_))
    simp only [isWs, isWsNotNl, isNewline, Bool.or_eq_true, decide_eq_true_eq] at hw
    simp only [IsSpace]
    omega

omit [Fate] in
theorem mkUnquoted_bad {v : Env} (hx : SymCtx f as x) (hc : BadCh v c) : mkUnquoted v c x fld = .error .ionException := by
  simp [mkUnquoted, Ctx.setUnicode, hx.isText, hx.quoted, hc.id, hc.op]

omit [Fate] in
theorem badCh_digit {v : Env} (hc : BadCh v c) : isDigit c = false ∧ isIdStart c = false ∧ isSymTerm c = false := by
  have h1 := hc.id
  simp only [isIdChar, Bool.or_eq_false_iff] at h1
  have h2 := hc.ev
  refine ⟨h1.1.2, h1.1.1, ?_⟩
  rw [Bool.eq_false_iff]
  intro h3
  simp only [isSymTerm, Bool.or_eq_true, decide_eq_true_eq] at h3
  rcases h3 with (h3 | h3) | h3
  · exact absurd h3 (by simp [hc.ws])
  · first | exact absurd h3 hc.colon | (subst h3; exact absurd h2 (by decide))
  · first | exact absurd h3 hc.colon | (subst h3; exact absurd h2 (by decide))

theorem t_badUnquoted (h0 : Fate.o = some .ionException) (hc : BadCh P.env c) {cs : List Nat} (hcs : ∀ c ∈ cs, isIdChar c = true) :
    ∀ {x : Ctx} {prev : Nat}, SymCtx f as x → isIdChar prev = true → T F P fld x (.unquoted fld prev) false true (cs ++ c :: r) [] := by
  induction cs with
  | nil =>
    intro x prev hx hp
    refine t_err h0 hx.quoted rfl ?_
    have h8 := (isIdChar_not hp).1
    simp [handle, onUnquoted, endsToken, h8, hc.ws, hc.ev, hc.colon, hc.op, hc.id]
  | cons d cs ih =>
    intro x prev hx hp
    have hd := hcs d (by simp)
    refine t_imm hx.quoted rfl ?_ (fun _ => by rw [(hx.push d).ionType]; rfl) (ih (fun e he => hcs e (by simp [he])) (hx.push d) hd)
    obtain ⟨h2, h3, h4, h5, h6, h7⟩ := isIdChar_not hd
    have h8 := (isIdChar_not hp).1
    simp [handle, onUnquoted, endsToken, h8, h2, h4, h5, h7, hd]

omit [Fate] in
theorem kw_bad {v : Env} (hx : SymCtx f as x) {q : List Nat} (hp : q ∈ kwPre) (hc : BadCh v c) (hn : q = [110, 117, 108, 108] → c = 46 → fld = true) :
    onKeyword v (kwState fld q) x { code := c } = .error .ionException := by
  have hm := mkUnquoted_bad (fld := fld) hx hc
  obtain ⟨h1, h2, h3⟩ := badCh_digit hc
  have hl : ∀ a, isIdChar a = true → c ≠ a := by
    rintro a ha rfl
    rw [hc.id] at ha
    cases ha
  have n1 := hl 117 (by decide)
  have n2 := hl 97 (by decide)
  have n3 := hl 108 (by decide)
  have n4 := hl 110 (by decide)
  have n5 := hl 114 (by decide)
  have n6 := hl 101 (by decide)
  have n7 := hl 115 (by decide)
  simp only [kwPre, List.mem_cons, List.not_mem_nil, or_false] at hp
  rcases hp with rfl | rfl | rfl | rfl | rfl | rfl | rfl | rfl | rfl | rfl | rfl | rfl | rfl | rfl | rfl
  case inr.inr.inr.inl =>
    by_cases h46 : c = 46
    · obtain rfl := hn rfl h46
      subst h46
      rfl
    · simp [onKeyword, keywordChecks, checkKeyword, Kw.suffix, kwState, List.isPrefixOf, bind, Except.bind, pure, Except.pure, notKeyword, h46, hc.ev, hc.colon, hc.op, hm, h3, andGo]
  all_goals
    simp [onKeyword, keywordChecks, checkKeyword, Kw.suffix, kwState, List.isPrefixOf, bind, Except.bind, pure, Except.pure, notKeyword, hc.ev, hc.colon, hc.op, hm, h3, andGo,
      n1, n2, n3, n4, n5, n6, n7]

theorem t_badKeyword (h0 : Fate.o = some .ionException) (hc : BadCh P.env c) {cs : List Nat} (hcs : ∀ c ∈ cs, isIdChar c = true) :
    ∀ {x : Ctx}, SymCtx f as x → x.value ≠ [] → (x.value ++ cs = [110, 117, 108, 108] → c = 46 → fld = true) →
    T F P fld x (.keyword (kwState fld x.value)) false true (cs ++ c :: r) [] := by
  obtain ⟨hdg, _, hst⟩ := badCh_digit hc
  induction cs with
  | nil =>
    intro x hx hne hn
    rw [List.append_nil] at hn
    refine t_err h0 hx.quoted rfl ?_
    simp only [handle]
    by_cases hp : x.value ∈ kwPre
    · exact kw_bad hx hp hc hn
    · rw [kw_none hne hp]
      simp [onKeyword, keywordChecks, bind, Except.bind, pure, Except.pure, notKeyword, hst, hc.ev, hc.op, mkUnquoted_bad hx hc, andGo]
  | cons d cs ih =>
    intro x hx hne hn
    have hd := hcs d (by simp)
    have hcs' : ∀ c ∈ cs, isIdChar c = true := fun e he => hcs e (by simp [he])
    have hval : (x.push d).value = x.value ++ [d] := rfl
    have hun : onKeyword P.env (kwState fld x.value) x { code := d } = andGo (mkUnquoted P.env d x fld) →
        T F P fld x (.keyword (kwState fld x.value)) false true (d :: cs ++ c :: r) [] := by
      intro hh
      refine t_imm hx.quoted rfl ?_ (fun _ => by rw [(hx.push d).ionType]; rfl) (t_badUnquoted h0 hc hcs' (hx.push d) hd)
      simp only [handle, hh, mkUnquoted_ok hx hd, andGo]
    by_cases hp : x.value ∈ kwPre
    · rcases kw_next hp hd (v := P.env) (fld := fld) (x := x) with ⟨h1, h2⟩ | ⟨h1, h2⟩
      · refine t_imm hx.quoted rfl ?_ (fun _ => by rw [(hx.push d).ionType]; rfl)
          (ih hcs' (hx.push d) (by rw [hval]; simp) (by rw [hval]; simpa using hn))
        simp only [handle, h2, hval]
      · exact hun h2
    · refine hun ?_
      rw [kw_none hne hp]
      obtain ⟨h1, h2, h3, h4, h5, h6⟩ := isIdChar_not hd
      simp [onKeyword, keywordChecks, notKeyword, h2, h3, h4, bind, Except.bind, pure, Except.pure]

theorem t_badDollar (h0 : Fate.o = some .ionException) (hc : BadCh P.env c) {cs : List Nat} (hcs : ∀ c ∈ cs, isIdChar c = true) :
    ∀ {x : Ctx} {s : DollarState}, SymCtx f as x → s.isField = fld → isIdChar s.prev = true →
    T F P fld x (.dollar s) false true (cs ++ c :: r) [] := by
  obtain ⟨hdg, hids, hst⟩ := badCh_digit hc
  induction cs with
  | nil =>
    intro x s hx hs hp
    refine t_err h0 hx.quoted rfl ?_
    have h8 := (isIdChar_not hp).1
    have h9 : (ivmCheck s c).1 = false := by
      have h95 : c ≠ 95 := by rintro rfl; exact absurd hc.id (by decide)
      have hl : ∀ a, isIdChar a = true → c ≠ a := by
        rintro a ha rfl
        rw [hc.id] at ha
        cases ha
      simp only [ivmCheck, hdg, h95]
      split
      · split
        · simp
        · simp only [decide_eq_false_iff_not]
          intro hh
          have hm : c ∈ ivmPrefix := List.mem_of_getElem? hh
          simp only [ivmPrefix, List.mem_cons, List.not_mem_nil, or_false] at hm
          rcases hm with h | h | h | h | h <;> exact hl _ (by decide) h
      · rfl
    simp [handle, onDollar, endsToken, h8, hc.ws, hc.ev, hc.colon, hc.op, hdg, h9, mkUnquoted_bad hx hc, andGo]
  | cons d cs ih =>
    intro x s hx hs hp
    have hd := hcs d (by simp)
    have hcs' : ∀ c ∈ cs, isIdChar c = true := fun e he => hcs e (by simp [he])
    obtain ⟨h2, h3, h4, h5, h6, h7⟩ := isIdChar_not hd
    have h8 := (isIdChar_not hp).1
    have het : endsToken P.env s.prev d = false := by simp [endsToken, h8, h4, h5, h7]
    by_cases hr : (ivmCheck s d).1 = true
    · refine t_imm hx.quoted rfl ?_ (fun _ => by rw [(hx.push d).ionType]; rfl)
        (ih hcs' (s := { s with prev := d, maybeSid := s.maybeSid && isDigit d, maybeIvm := true, completeIvm := (ivmCheck s d).2.1, post := (ivmCheck s d).2.2, index := if s.index < 5 then s.index + 1 else s.index }) (hx.push d) hs hd)
      simp only [handle, onDollar, h2, het, hr, Bool.false_eq_true, if_false, if_true]
    · have hr : (ivmCheck s d).1 = false := by simpa using hr
      by_cases hsid : (s.maybeSid && isDigit d) = true
      · refine t_imm hx.quoted rfl ?_ (fun _ => by rw [(hx.push d).ionType]; rfl)
          (ih hcs' (s := { s with prev := d, maybeSid := s.maybeSid && isDigit d, maybeIvm := false, completeIvm := (ivmCheck s d).2.1, post := (ivmCheck s d).2.2 }) (hx.push d) hs hd)
        simp only [handle, onDollar, h2, het, hr, hsid, Bool.false_eq_true, if_false, Bool.not_true]
      · have hsid : (s.maybeSid && isDigit d) = false := by simpa using hsid
        refine t_imm hx.quoted rfl ?_ (fun _ => by rw [(hx.push d).ionType]; rfl) (t_badUnquoted h0 hc hcs' (hx.push d) hd)
        simp only [handle, onDollar, h2, het, hr, hsid, Bool.false_eq_true, if_false, Bool.not_false, if_true, mkUnquoted_ok hx hd, andGo, hs]

omit [Fate] in
theorem ident_chars {w : List Nat} (h : IsIdent w) : ∃ c cs, w = c :: cs ∧ (isIdStart c = true ∨ c = 36) ∧ ∀ d ∈ cs, isIdChar d = true := by
  cases w with
  | nil => exact absurd h (by simp [IsIdent])
  | cons c cs =>
    refine ⟨c, cs, rfl, idStart_iff.2 h.1, fun d hd => ?_⟩
    have := h.2 d hd
    simp only [IdentStart, Digit] at this
    simp only [isIdChar, isIdStart, isLetter, isDigit, Bool.or_eq_true, Bool.and_eq_true, decide_eq_true_eq]
    omega

/-- The first character of an identifier other than a dollar sign. -/
theorem at_idStart (hst : isIdStart c = true) (hr : T F P fld (kctx f as [c]) (.keyword (kwState fld [c])) false true r es) : At F P fld false (childOf f as) cm (c :: r) es := by
  have hc2 : c ≠ 45 ∧ c ≠ 43 ∧ c ≠ 48 ∧ c ≠ 123 ∧ c ≠ 40 ∧ c ≠ 91 ∧ c ≠ 39 ∧ c ≠ 34 ∧ c ≠ 36 ∧ isDigit c = false := by
    simp only [isIdStart, isLetter, Bool.or_eq_true, Bool.and_eq_true, decide_eq_true_eq] at hst
    simp [isDigit]
    omega
  obtain ⟨n1, n2, n3, n4, n5, n6, n7, n8, h36, n9⟩ := hc2
  have hkw : mkKeyword P.env c (dec f as) fld = .ok (kctx f as [c], .keyword (kwState fld [c])) := by
    simp only [mkKeyword, hst, if_true, dec, ne_eq, not_true_eq_false, if_false, Ctx.setUnicode, Bool.false_eq_true, Ctx.setType, reduceCtorEq, Ctx.push, List.nil_append]
    have b1 : (c == 110) = decide (c = 110) := by by_cases h : c = 110 <;> simp [h]
    have b2 : (c == 116) = decide (c = 116) := by by_cases h : c = 116 <;> simp [h]
    have b3 : (c == 102) = decide (c = 102) := by by_cases h : c = 102 <;> simp [h]
    simp [kwState, List.isPrefixOf, b1, b2, b3, kctx, dec]
  refine at_start (x := kctx f as [c]) (h := .keyword (kwState fld [c])) (plain_of_idStart (.inl hst) P) ?_ ?_
  · cases fld with
    | true => simp [fieldTable, n7, n8, h36, hst, hkw]
    | false => simp [valueTable, n1, n2, n3, n4, n5, n6, n7, n8, n9, h36, hkw]
  · simp only [n7, n8, decide_false, Bool.or_self]
    exact hr

theorem at_badIdent (h0 : Fate.o = some .ionException) (hp : Same P p) {w : List Nat} (hw : IsIdent w) (hc : BadAfter p c) (hle : c ≤ 0x10FFFF)
    (hn : w = [110, 117, 108, 108] → c = 46 → fld = true) : At F P fld false (childOf f as) cm (w ++ c :: r) [] := by
  have hb := badCh hp hc hle
  obtain ⟨d, cs, rfl, hd, hcs⟩ := ident_chars hw
  by_cases h36 : d = 36
  · subst h36
    refine at_start (x := kctx f as [36]) (h := .dollar { isField := fld, maybeIvm := decide (P.outer.length = 0) && !fld && as.isEmpty }) (plain_of_idStart (.inr (.inl rfl)) P) ?_ ?_
    · cases fld <;> simp [fieldTable, valueTable, mkDollar, Ctx.setUnicode, dec, Ctx.setType, Ctx.push, Loc.env, kctx]
    · exact t_badDollar h0 hb hcs (symCtx_start _) rfl (show isIdChar 36 = true by decide)
  · exact at_idStart (hd.resolve_right h36) (t_badKeyword h0 hb hcs (symCtx_start _) (by simp [kctx]) hn)

/-! ## Keywords -/

theorem t_wordF {q cs : List Nat} (hc : ∀ c ∈ cs, isIdChar c = true) (hp : ∀ n ≤ cs.length, q ++ cs.take n ∈ kwPre)
    (hr : T F P fld (kctx f as (q ++ cs)) (.keyword (kwState fld (q ++ cs))) false true r es) :
    T F P fld (kctx f as q) (.keyword (kwState fld q)) false true (cs ++ r) es := by
  induction cs generalizing q with
  | nil => simpa using hr
  | cons c cs ih =>
    have h0 : q ∈ kwPre := by simpa using hp 0 (by simp)
    have h1 : q ++ [c] ∈ kwPre := by simpa using hp 1 (by simp)
    rcases kw_next h0 (hc c (by simp)) (v := P.env) (fld := fld) (x := kctx f as q) with ⟨_, h2⟩ | ⟨h2, _⟩
    · refine t_imm (x' := kctx f as (q ++ [c])) rfl rfl (by simp only [handle, h2]; rfl) (fun _ => rfl) (ih (fun d hd => hc d (by simp [hd])) (fun n hn => ?_) (by simpa using hr))
      have := hp (n + 1) (by simpa using hn)
      simpa using this
    · exact absurd h1 h2

theorem at_wordF {p0 : Nat} {cs : List Nat} (h0 : p0 = 110 ∨ p0 = 116 ∨ p0 = 102) (hc : ∀ c ∈ cs, isIdChar c = true) (hp : ∀ n ≤ cs.length, p0 :: cs.take n ∈ kwPre)
    (hr : T F P fld (kctx f as (p0 :: cs)) (.keyword (kwState fld (p0 :: cs))) false true r es) :
    At F P fld false (childOf f as) cm (p0 :: cs ++ r) es := by
  have hst : isIdStart p0 = true := by rcases h0 with rfl | rfl | rfl <;> decide
  exact at_idStart hst (t_wordF hc hp hr)

/-- A keyword and a character that is not accepted after it. -/
theorem at_reserved {w : List Nat} (hw : w ∈ reserved) (hr : T F P fld (kctx f as w) (.keyword (kwState fld w)) false true r es) : At F P fld false (childOf f as) cm (w ++ r) es := by
  have hw : w = [110, 117, 108, 108] ∨ w = [116, 114, 117, 101] ∨ w = [102, 97, 108, 115, 101] ∨ w = [110, 97, 110] := by
    simpa [reserved, asc] using hw
  rcases hw with rfl | rfl | rfl | rfl
  · exact at_wordF (.inl rfl) (by decide) (pre_all (by decide)) hr
  · exact at_wordF (.inr (.inl rfl)) (by decide) (pre_all (by decide)) hr
  · exact at_wordF (.inr (.inr rfl)) (by decide) (pre_all (by decide)) hr
  · exact at_wordF (.inl rfl) (by decide) (pre_all (by decide)) hr

omit [Fate] in
theorem kw_reserved {v : Env} {w : List Nat} (hw : w ∈ reserved) (hc : c = 58 ∨ fld = true ∧ endsValue c = true) :
    onKeyword v (kwState fld w) x { code := c } = .error .ionException := by
  have hw : w = [110, 117, 108, 108] ∨ w = [116, 114, 117, 101] ∨ w = [102, 97, 108, 115, 101] ∨ w = [110, 97, 110] := by
    simpa [reserved, asc] using hw
  rcases hc with rfl | ⟨rfl, hc⟩
  · rcases hw with rfl | rfl | rfl | rfl <;> rfl
  · rcases hw with rfl | rfl | rfl | rfl <;>
      simp [onKeyword, keywordChecks, checkKeyword, Kw.suffix, kwState, List.isPrefixOf, bind, Except.bind, pure, Except.pure, hc]

theorem at_keywordColon (h0 : Fate.o = some .ionException) {w : List Nat} (hw : w ∈ reserved) : At F P fld false (childOf f as) cm (w ++ 58 :: r) [] :=
  at_reserved hw (t_err h0 rfl rfl (kw_reserved hw (.inl rfl)))

theorem at_keywordField (h0 : Fate.o = some .ionException) {w : List Nat} (hw : w ∈ reserved) (hr : ∀ c r', r = c :: r' → c = 58 ∨ IsStop c ∧ c ≠ 11 ∧ c ≠ 12) :
    At F P true false none cm (w ++ r) [] := by
  refine at_reserved (f := none) (as := []) hw ?_
  cases r with
  | nil => exact t_errNil h0 rfl rfl (kw_reserved hw (.inr ⟨rfl, rfl⟩))
  | cons c r =>
    refine t_err h0 rfl rfl (kw_reserved hw ?_)
    rcases hr c r rfl with h | ⟨h1, h2, h3⟩
    · exact .inl h
    · rcases stop_cases h1 with h | h | h
      · exact .inr ⟨rfl, by simp [endsValue, h]⟩
      · exact absurd h h2
      · exact absurd h h3

/-! ## Typed nulls -/

/-- The rest of the type names is ASCII. -/
def NullNode.low : NullNode → Prop
  | .leaf _ l => ∀ a ∈ l, a < 128
  | _ => True

omit [Fate] in
theorem NullNode.low_next {n n' : NullNode} (h : n.low) (hn : n.next c = some n') : n'.low := by
  cases n with
  | leaf ty l =>
    cases l with
    | nil => simp [NullNode.next] at hn
    | cons a l =>
      simp only [NullNode.next] at hn
      split at hn
      · simp only [Option.some.injEq] at hn
        subst hn
        exact fun b hb => h b (by simp [hb])
      · cases hn
  | starts =>
    simp only [NullNode.next] at hn
    repeat' split at hn
    all_goals first | (cases hn; done) | (simp only [Option.some.injEq] at hn; subst hn; simp [NullNode.low])
  | s =>
    simp only [NullNode.next] at hn
    repeat' split at hn
    all_goals first | (cases hn; done) | (simp only [Option.some.injEq] at hn; subst hn; simp [NullNode.low])
  | st =>
    simp only [NullNode.next] at hn
    repeat' split at hn
    all_goals first | (cases hn; done) | (simp only [Option.some.injEq] at hn; subst hn; simp [NullNode.low])
  | str =>
    simp only [NullNode.next] at hn
    repeat' split at hn
    all_goals first | (cases hn; done) | (simp only [Option.some.injEq] at hn; subst hn; simp [NullNode.low])
  | b =>
    simp only [NullNode.next] at hn
    repeat' split at hn
    all_goals first | (cases hn; done) | (simp only [Option.some.injEq] at hn; subst hn; simp [NullNode.low])

omit [Fate] in
theorem onTypedNull_next {v : Env} {n : NullNode} (h : ∀ ty, n ≠ .leaf ty []) (d : Nat) : onTypedNull v n x { code := d } = match n.next d with
    | none => .error .ionException
    | some n => .ok { ctx := x, res := .imm (.typedNull n) } := by
  cases n with
  | leaf ty l =>
    cases l with
    | nil => exact absurd rfl (h ty)
    | cons a l => rfl
  | _ => rfl

omit [Fate] in
theorem next_eof {n : NullNode} (h : n.low) : n.next EOF = none := by
  cases n with
  | leaf ty l =>
    cases l with
    | nil => rfl
    | cons a l =>
      have := h a (by simp)
      have h1 : EOF ≠ a := by simp only [EOF]; omega
      simp only [NullNode.next, h1, if_false]
  | _ => rfl

theorem t_badNull (h0 : Fate.o = some .ionException) (hp : Same P p) : ∀ {r : List Nat} {n : NullNode}, n.low → (∀ c ∈ r, c ≤ 0x10FFFF) →
    (∀ cs ty r', n.walk cs = some (.leaf ty []) → r = cs ++ r' → GoesOn p r') → T F P false (kctx f as [110, 117, 108, 108]) (.typedNull n) false true r [] := by
  intro r
  induction r with
  | nil =>
    intro n hl _ hr
    have hn : ∀ ty, n ≠ .leaf ty [] := by
      rintro ty rfl
      obtain ⟨c, r', h, _⟩ := hr [] ty [] rfl rfl
      cases h
    refine t_errNil h0 rfl rfl ?_
    simp only [handle, onTypedNull_next hn, next_eof hl]
  | cons c r ih =>
    intro n hl hle hr
    by_cases hn : ∀ ty, n ≠ .leaf ty []
    · cases hx : n.next c with
      | none =>
        refine t_err h0 rfl rfl ?_
        simp only [handle, onTypedNull_next hn, hx]
      | some n' =>
        refine t_imm (x' := kctx f as [110, 117, 108, 108]) (h' := .typedNull n') rfl rfl ?_ (fun _ => rfl)
          (ih (n.low_next hl hx) (fun d hd => hle d (by simp [hd])) fun cs ty r' hw he => hr (c :: cs) ty r' ?_ (by rw [he]; rfl))
        · simp only [handle, onTypedNull_next hn, hx]
        · simp only [NullNode.walk, hx, hw]
    · obtain ⟨ty, rfl⟩ : ∃ ty, n = .leaf ty [] := by
        cases n with
        | leaf ty l => cases l with
          | nil => exact ⟨ty, rfl⟩
          | cons => exact absurd (by simp) hn
        | _ => exact absurd (by simp) hn
      obtain ⟨d, r', he, h1, h2⟩ := hr [] ty (c :: r) rfl rfl
      cases he
      refine t_err h0 rfl rfl ?_
      have h3 := (plain_not ⟨hle c (by simp), h1⟩).1
      simp [handle, onTypedNull, h3, noOp hp h2]

omit [Fate] in
theorem walk_leaf {ty ty' : IonType} : ∀ {cs l : List Nat}, (NullNode.leaf ty l).walk cs = some (.leaf ty' []) → ty = ty' ∧ cs = l := by
  intro cs
  induction cs with
  | nil =>
    intro l h
    simp only [NullNode.walk, Option.some.injEq, NullNode.leaf.injEq] at h
    exact ⟨h.1, h.2.symm⟩
  | cons c cs ih =>
    intro l h
    cases l with
    | nil => simp [NullNode.walk, NullNode.next] at h
    | cons a l =>
      simp only [NullNode.walk, NullNode.next] at h
      by_cases hc : c = a
      · simp only [hc, if_true] at h
        obtain ⟨h1, h2⟩ := ih h
        exact ⟨h1, by rw [hc, h2]⟩
      · simp [hc] at h

omit [Fate] in
theorem walk_next {n : NullNode} {ty : IonType} {cs : List Nat} (hn : ∀ ty, n ≠ .leaf ty []) (h : n.walk cs = some (.leaf ty [])) :
    ∃ c cs' n', cs = c :: cs' ∧ n.next c = some n' ∧ n'.walk cs' = some (.leaf ty []) := by
  cases cs with
  | nil =>
    simp only [NullNode.walk, Option.some.injEq] at h
    exact absurd h (hn ty)
  | cons c cs =>
    simp only [NullNode.walk] at h
    cases hx : n.next c with
    | none => rw [hx] at h; cases h
    | some n' => rw [hx] at h; exact ⟨c, cs, n', rfl, hx, h⟩

omit [Fate] in
theorem walk_starts {ty : IonType} {cs : List Nat} (h : NullNode.starts.walk cs = some (.leaf ty [])) : cs = typeName ty := by
  obtain ⟨c, cs, n, rfl, h1, h⟩ := walk_next (by simp) h
  simp only [NullNode.next] at h1
  repeat' split at h1
  all_goals first
    | (cases h1; done)
    | skip
  all_goals
    subst_vars
    simp only [Option.some.injEq] at h1
    subst h1
  all_goals first
    | (obtain ⟨rfl, rfl⟩ := walk_leaf h; rfl)
    | skip
  · obtain ⟨c, cs, n, rfl, h1, h⟩ := walk_next (by simp) h
    simp only [NullNode.next] at h1
    repeat' split at h1
    all_goals first
      | (cases h1; done)
      | skip
    all_goals
      subst_vars
      simp only [Option.some.injEq] at h1
      subst h1
    all_goals first
      | (obtain ⟨rfl, rfl⟩ := walk_leaf h; rfl)
      | skip
    obtain ⟨c, cs, n, rfl, h1, h⟩ := walk_next (by simp) h
    simp only [NullNode.next] at h1
    split at h1
    · subst_vars
      simp only [Option.some.injEq] at h1
      subst h1
      obtain ⟨c, cs, n, rfl, h1, h⟩ := walk_next (by simp) h
      simp only [NullNode.next] at h1
      repeat' split at h1
      all_goals first
        | (cases h1; done)
        | skip
      all_goals
        subst_vars
        simp only [Option.some.injEq] at h1
        subst h1
        obtain ⟨rfl, rfl⟩ := walk_leaf h
        rfl
    · cases h1
  · obtain ⟨c, cs, n, rfl, h1, h⟩ := walk_next (by simp) h
    simp only [NullNode.next] at h1
    repeat' split at h1
    all_goals first
      | (cases h1; done)
      | skip
    all_goals
      subst_vars
      simp only [Option.some.injEq] at h1
      subst h1
      obtain ⟨rfl, rfl⟩ := walk_leaf h
      rfl

theorem at_badNull (h0 : Fate.o = some .ionException) (hp : Same P p) (hle : ∀ c ∈ r, c ≤ 0x10FFFF) (hr : ∀ ty r', r = typeName ty ++ r' → GoesOn p r') :
    At F P false false (childOf f as) cm (asc ['n','u','l','l','.'] ++ r) [] := by
  have : asc ['n','u','l','l','.'] ++ r = (110 :: [117, 108, 108]) ++ (46 :: r) := by simp [asc]
  rw [this]
  refine at_word (.inl rfl) (by decide) (pre_all (by decide)) ?_
  refine t_imm (x' := kctx f as [110, 117, 108, 108]) (h' := .typedNull .starts) rfl rfl rfl (fun _ => rfl) (t_badNull h0 hp trivial hle fun cs ty r' hw he => hr ty r' ?_)
  rw [he, walk_starts hw]

/-! ## Infinities -/

theorem t_badInf (h0 : Fate.o = some .ionException) (hp : Same P p) (hs : p ≠ some .sexp) {neg : Bool} {v : List Nat} : ∀ {m l : List Nat}, infSuffix = m ++ l → ∀ {r : List Nat} {ty : Option IonType},
    (∀ c ∈ r, c ≤ 0x10FFFF) → (∀ r', r = l ++ r' → GoesOn p r') → T F P false { dec f as with value := v, ionType := ty } (.inf neg m.length) false true r [] := by
  have hsx : P.env.inSexp = false := Bool.eq_false_iff.2 fun h => hs ((sexpView_iff hp).1 h)
  have hst : ∀ ty, ({ dec f as with value := v, ionType := ty } : Ctx).setType (some .float) = nctx f as .float v := by
    intro ty
    simp only [Ctx.setType, nctx]
    by_cases h : ty = some .float
    · simp [h]
    · simp [h, dec]
  have hno : ∀ i c, notInf P.env i (nctx f as .float v) c = .error .ionException := by
    intro i c
    simp [notInf, Ctx.setUnicode, nctx, dec, hsx]
  intro m l
  induction l generalizing m with
  | nil =>
    intro hm r ty hle hr
    rw [List.append_nil] at hm
    obtain ⟨c, r, rfl, h1, h2⟩ := hr r rfl
    refine t_err h0 rfl rfl ?_
    have h3 := (plain_not ⟨hle c (by simp), h1⟩).1
    simp only [handle, onInf, hst]
    rw [hm, List.getElem?_eq_none (by simp)]
    simp only [h3, hsx, Bool.false_and, Bool.or_self, Bool.false_eq_true, if_false, hno]
  | cons a l ih =>
    intro hm r ty hle hr
    have hi : infSuffix[m.length]? = some a := by rw [hm]; simp
    have ha : a ≠ EOF := by
      have : a ∈ infSuffix := by rw [hm]; simp
      simp only [infSuffix, List.mem_cons, List.not_mem_nil, or_false] at this
      simp only [EOF]
      omega
    cases r with
    | nil =>
      refine t_errNil h0 rfl rfl ?_
      simp only [handle, onInf, hst, hi, hno, ha.symm, if_false]
    | cons c r =>
      by_cases hc : c = a
      · subst hc
        refine t_imm (x' := nctx f as .float v) (h' := .inf neg (m.length + 1)) (b' := true) rfl rfl ?_ (fun _ => rfl) ?_
        · simp only [handle, onInf, hst, hi, if_true]
        · have := ih (m := m ++ [c]) (by simpa using hm) (r := r) (ty := some .float) (fun d hd => hle d (by simp [hd])) (fun r' he => hr r' (by rw [he]; rfl))
          rw [List.length_append] at this
          exact this
      · refine t_err h0 rfl rfl ?_
        simp only [handle, onInf, hst, hi, hno, hc, if_false]

theorem at_badPlus (h0 : Fate.o = some .ionException) (hp : Same P p) (hs : p ≠ some .sexp) (hle : ∀ c ∈ r, c ≤ 0x10FFFF) (hr : ∀ r', r = asc ['i','n','f'] ++ r' → GoesOn p r') :
    At F P false false (childOf f as) cm (43 :: r) [] := by
  refine at_value (x := { dec f as with value := [43], ionType := none }) (h := .inf false 0) (q := false) (plainStart_of (.inl (by decide)) P) rfl rfl ?_
  exact t_badInf (m := []) (l := [105, 110, 102]) h0 hp hs rfl hle hr

theorem at_badMinus (h0 : Fate.o = some .ionException) (hp : Same P p) (hs : p ≠ some .sexp) (hd : ¬ Digit c) (hle : ∀ d ∈ c :: r, d ≤ 0x10FFFF) (hr : ∀ r', c :: r = asc ['i','n','f'] ++ r' → GoesOn p r') :
    At F P false false (childOf f as) cm (45 :: c :: r) [] := by
  refine at_value (x := nctx f as .int [45]) (h := .negStart) (q := false) (plainStart_of (.inl (by decide)) P) rfl rfl ?_
  refine t_unread (x' := nctx f as .int [45]) (h' := .inf true 0) (b' := true) rfl rfl ?_ (fun _ => rfl) (t_badInf (m := []) (l := [105, 110, 102]) (ty := some .int) h0 hp hs rfl hle hr)
  have h1 : isDigit c = false := Bool.eq_false_iff.2 fun h => hd (digit_iff.1 h)
  have h2 : c ≠ 48 := by rintro rfl; exact hd (by simp [Digit])
  have h3 : c ≠ EOF := by
    have := hle c (by simp)
    simp only [EOF]
    omega
  simp [handle, h1, h2, h3, checkUnread]

/-! ## A single colon -/

theorem symK_colon (h0 : Fate.o = some .ionException) {t : Tok} (hr : NoNext (· = 58) r) : SymK F P false f as t (58 :: r) [] := by
  intro cf x hx
  refine events_go ?_
  have h1 : isWs 58 = false := by decide
  have h2 : (58 : Nat) ≠ EOF := by decide
  simp only [next, onHead, isEnd_colon, h1, h2, show (58 : Nat) ≠ 44 from by decide, decide_false, Bool.and_false, Bool.or_false, Bool.false_eq_true, if_false,
    onStart, show (58 : Nat) ≠ 47 from by decide, St.pending, Option.bind_some, hx.pending, if_true]
  cases r with
  | nil => exact run_cut h0
  | cons c r =>
    refine run_read ?_
    rw [if_neg (hr c r rfl)]
    exact run_err h0

theorem at_badColon (h0 : Fate.o = some .ionException) (hp : Same P p) {s : List Nat} {a : TSym} (hs : IsSym s a) (hg : IsGap g) (hb : s = [39, 39] → IsBlank g) (hr : NoNext (· = 58) r) :
    At F P false false (childOf f as) cm (s ++ (g ++ 58 :: r)) [] := by
  refine at_sym hs (follow_colon hg) (.inr (.inl (gap_enders hg fun _ => (by decide : 58 ∈ enders)))) (fun h0 => ⟨hb h0, gap_noQuote hg fun _ => (by decide : 58 ≠ 39), (by decide : 58 ≠ 47)⟩) (by simp) fun t ht => ⟨fun h1 => ?_, symK_colon h0 hr⟩
  rcases ht with ⟨_, rfl⟩ | ⟨h2, _⟩
  · cases a <;> exact ⟨_, rfl⟩
  · simp only [Bool.not_false, Bool.and_true, Bool.and_eq_true, decide_eq_true_eq, List.length_eq_zero_iff, List.isEmpty_iff] at h2
    exact absurd h2.1 (hp.sexp h1)

theorem at_badWord (h0 : Fate.o = some .ionException) (hp : Same P p) (hb : BadWord p r) (hle : ∀ c ∈ r, c ≤ 0x10FFFF) : At F P false false (childOf f as) cm r [] := by
  cases hb with
  | char w c r hw hc hn => exact at_badIdent h0 hp hw hc (hle c (by simp)) fun h1 h2 => absurd h2 (hn (by rw [h1]; rfl))
  | keyword w r hw => exact at_keywordColon h0 hw
  | null r hr => exact at_badNull h0 hp (fun c hc => hle c (by simp [hc])) hr
  | plus r hs hr => exact at_badPlus h0 hp hs (fun c hc => hle c (by simp [hc])) hr
  | minus c r hs hd hr => exact at_badMinus h0 hp hs hd (fun d hd => hle d (List.mem_cons_of_mem _ hd)) hr
  | colon s g r a hs hg hb hr => exact at_badColon h0 hp hs hg hb hr

/-! ## Field names without a colon -/

theorem symK_dead {t : Tok} (hd : Dead P true none es) (hr : NoNext (· = 58) r) : SymK F P true none [] t r es := by
  cases r with
  | nil => exact .inl (.inl hd)
  | cons c r =>
    have := hr c r rfl
    simp only [SymK]
    split
    · next h => cases h; exact absurd rfl this
    · exact .inl (.inl hd)

theorem at_longFieldEnd (h0 : Fate.o = some .ionException) {s : List Nat} {tx : Text} (hs : TextSpec.IsLong false s tx) (hg : TextSpec.IsTrivia g)
    (hr : ∀ c r', r = c :: r' → followStart c = true ∧ c ≠ 58 ∧ c ≠ 39) : At F P true false none cm (s ++ (g ++ r)) [] := by
  obtain ⟨s', rfl, ht⟩ := t_long (F := F) (P := P) (fld := true) (f := none) (as := []) (r := g ++ r) (first := true) (b := false) (es := [])
    (by simp) hs (v := []) (x := { fctx none [] [] with ionType := some .symbol }) ⟨rfl, rfl, rfl, rfl, fun _ => ⟨rfl, rfl, rfl⟩, by simp⟩ rfl (fun x hx hq => by
      refine t_longGap (clob := false) hg (by simp) (fun x hx hq => ?_) hx hq
      cases r with
      | nil =>
        refine t_errNil h0 hq rfl ?_
        simp [handle, onLong, longAfter, EOF, show isWs 1114112 = false from rfl]
      | cons c r =>
        obtain ⟨h1, h2, h3⟩ := hr c r rfl
        simp only [followStart, Bool.and_eq_true, Bool.not_eq_true', decide_eq_true_eq] at h1
        refine t_err h0 hq rfl ?_
        simp [handle, onLong, longAfter, h1.1.1, h1.1.2, h2, h3])
  refine at_start (f := none) (as := []) (fld := true) (x := dec none []) (h := .quote1 true) (plain_of_idStart (.inr (.inr rfl)) P) rfl ?_
  refine t_quoteImm (x' := (dec none []).setType (some .symbol)) (h' := .quote2 true) (b' := false) (.inr rfl) rfl rfl (by simp [handle]) (by simp) ?_
  exact t_imm (x' := { fctx none [] [] with ionType := some .symbol }) (h' := .long true false 0 true true) (b' := false) rfl rfl rfl (by simp) ht

theorem at_noColon (h0 : Fate.o = some .ionException) (hp : Same P (some .struct)) {s : List Nat} {a : TSym} (hs : IsFieldName s a) (hg : IsGap g) (hb : s = [39, 39] → IsBlank g)
    (ht : IsToken r) (hr : NoNext (· = 58) r) (hi : IsIdent s → g ≠ []) (hq : ∀ l, s = 39 :: 39 :: l → NoNext (· = 39) r) :
    At F P true false none cm (s ++ (g ++ r)) [] := by
  have h1 : P.ty = some .struct := hp.ty
  have h2 : P.outer ≠ [] := fun h => by simpa using hp.top h
  have hd : Dead P true none [] := ⟨h0, rfl, rfl, h2, h1, rfl⟩
  have hf : Follow P g r := .of hg.1 (starts_of ht)
  have hk : ∀ t, SymR F P true none [] t r [] := fun t => ⟨fun h => by rw [h1] at h; simp at h, symK_dead hd hr⟩
  cases hs with
  | sym _ _ hs =>
    have hcase : [39] <:+ s ∨ g ≠ [] := by
      cases hs with
      | ident _ h _ _ => exact .inr (hi h)
      | sid ds h3 h4 => exact .inr (hi ⟨.inr (.inr (.inl rfl)), fun d hd => .inr (h4 d hd)⟩)
      | quoted bs t _ => exact .inl ⟨39 :: bs, rfl⟩
    refine at_sym (fld := true) (f := none) (as := []) hs hf (hcase.imp id fun h => .inl (gap_enders hg fun h' => absurd h' h))
      (fun h3 => ⟨hb h3, gap_noQuote hg fun _ => ?_, ?_⟩) (fun _ => hcase.imp id fun h => gap_symTerm hg fun h' => absurd h' h) fun t _ => hk t
    · have h4 := hq [] h3
      cases r with
      | nil => decide
      | cons c r => exact h4 c r rfl
    · cases r with
      | nil => decide
      | cons c r => exact (ht c r rfl).2.2
  | string bs t hb' => simpa using at_fieldString (F := F) (P := P) (cm := cm) (es := []) hb' hf (hk _)
  | long _ t hs =>
    refine at_longFieldEnd h0 hs hg.1 fun c r' hc => ⟨starts_of ht c r' hc, hr c r' hc, ?_⟩
    have : ∃ l, s = 39 :: 39 :: l := by cases hs <;> exact ⟨_, rfl⟩
    obtain ⟨l, hl⟩ := this
    exact hq l hl c r' hc

/-! ## Clobs -/

theorem t_badLobEnd (h0 : Fate.o = some .ionException) (hq : x.quoted = false) (hb : BadLobEnd r) (hle : ∀ c ∈ r, c ≤ 0x10FFFF) : ∀ {pv : Nat}, pv ≠ 125 → T F P false x (.clobEnd pv) false false r [] := by
  have hblank : ∀ (w : List Nat), IsBlank w → ∀ {r : List Nat}, (∀ pv, pv ≠ 125 → T F P false x (.clobEnd pv) false false r []) → ∀ {pv : Nat}, pv ≠ 125 → T F P false x (.clobEnd pv) false false (w ++ r) [] := by
    intro w
    induction w with
    | nil => exact fun _ _ h _ hp => h _ hp
    | cons c w ih =>
      intro hw r h pv hp
      have hc := hw c (by simp)
      have h125 : c ≠ 125 := by simp only [IsSpace] at hc; omega
      refine t_imm (x' := x) (h' := .clobEnd c) (b' := false) hq rfl ?_ (by simp) (ih (fun d hd => hw d (by simp [hd])) h h125)
      simp [handle, onClobEnd, isWs_of hc, hp]
  have hbad : ∀ (c : Nat) {pv : Nat}, (isWs c = true → pv = 125) → (c = 125 → pv ≠ pv) → handle F P.env x (.clobEnd pv) { code := c } = .error .ionException := by
    intro c pv h1 h2
    simp only [handle, onClobEnd]
    by_cases hw : isWs c = true
    · rw [if_pos hw, if_pos (h1 hw)]
    · have h3 : c ≠ 125 := fun h => h2 h rfl
      simp [hw, h3]
  intro pv hp
  cases hb with
  | cut _ hw =>
    have := hblank r hw (r := []) (fun pv hp => t_errNil h0 hq rfl (hbad _ (by simp [show isWs EOF = false from rfl]) (by simp [EOF]))) hp
    simpa using this
  | char w c r hw h1 h2 =>
    refine hblank w hw (fun pv hp => t_err h0 hq rfl (hbad _ (fun h => ?_) (fun h => absurd h h2))) hp
    refine absurd ?_ h1
    simp only [isWs, isWsNotNl, isNewline, Bool.or_eq_true, decide_eq_true_eq] at h
    simp only [IsSpace]
    omega
  | brace w r hw hr =>
    refine hblank w hw (fun pv hp => ?_) hp
    refine t_imm (x' := x) (h' := .clobEnd 125) (b' := false) hq rfl (by simp [handle, onClobEnd, show isWs 125 = false from rfl, hp]) (by simp) ?_
    cases r with
    | nil => exact t_errNil h0 hq rfl (hbad _ (fun _ => rfl) (by simp [EOF]))
    | cons c r => exact t_err h0 hq rfl (hbad _ (fun _ => rfl) fun h => absurd h (hr c r rfl))

theorem at_badClobEnd (h0 : Fate.o = some .ionException) {w bs : List Nat} {t : Text} (hw : IsBlank w) (hb : IsChars 34 true bs t) (hr : BadLobEnd r) (hle : ∀ c ∈ r, c ≤ 0x10FFFF) :
    At F P false false (childOf f as) cm (123 :: 123 :: (w ++ 34 :: (bs ++ 34 :: r))) [] := by
  refine at_lobStart (t_lobBlank (fun c hc => isWs_of (hw c hc)) ?_)
  refine t_imm (x' := sctx f as .clob []) (h' := .shortClob) (b' := false) rfl rfl rfl (by simp) ?_
  exact t_clobChars hb (t_badLobEnd h0 rfl hr hle (by decide))

theorem at_badLongClobEnd (h0 : Fate.o = some .ionException) {w s : List Nat} {t : Text} (hw : IsBlank w) (hs : IsLong true s t) (hr : BadLobEnd r)
    (hn : ∀ w' r', IsBlank w' → r ≠ w' ++ 39 :: r') (hle : ∀ c ∈ r, c ≤ 0x10FFFF) :
    At F P false false (childOf f as) cm (123 :: 123 :: (w ++ (s ++ r))) [] := by
  have hl : ∀ w', IsBlank w' → IsTrivia w' := by
    intro w'
    induction w' with
    | nil => exact fun _ => .nil
    | cons c w ih => exact fun h => .space c w (h c (by simp)) (ih fun d hd => h d (by simp [hd]))
  have hstep : ∀ {x : Ctx} (c : Nat), isWs c = false → c ≠ 39 → handle F P.env x (.long false true 0 false false) { code := c } =
      andGo (mkClobEnd c { x with selfDelim := false }) := by
    intro x c h1 h2
    simp [handle, onLong, longAfter, h1, h2]
  obtain ⟨s', rfl, ht⟩ := t_long (F := F) (P := P) (fld := false) (f := f) (as := as) (r := r) (first := true) (b := false) (es := [])
    (by simp) hs (v := []) (x := sctx f as .clob []) ⟨rfl, rfl, rfl, rfl, by simp, fun _ => rfl⟩ rfl (fun x hx hq => by
      cases hr with
      | cut _ hw' =>
        have := t_longGap (F := F) (P := P) (fld := false) (es := []) (r := []) (clob := true) (hl r hw') (fun _ => hw') (fun x hx hq => by
          refine t_errNil h0 hq rfl ?_
          rw [hstep _ rfl (by decide)]
          simp [mkClobEnd, andGo, EOF, show isWs 1114112 = false from rfl]) hx hq
        simpa using this
      | char w' c r hw' h1 h2 =>
        refine t_longGap (clob := true) (hl w' hw') (fun _ => hw') (fun x hx hq => ?_) hx hq
        have h3 : isWs c = false := by
          rw [Bool.eq_false_iff]
          intro h
          refine h1 ?_
          simp only [isWs, isWsNotNl, isNewline, Bool.or_eq_true, decide_eq_true_eq] at h
          simp only [IsSpace]
          omega
        refine t_err h0 hq rfl ?_
        rw [hstep _ h3 (fun h => hn w' r hw' (by rw [h]))]
        simp [mkClobEnd, andGo, h2, h3]
      | brace w' r hw' hr =>
        refine t_longGap (clob := true) (hl w' hw') (fun _ => hw') (fun x hx hq => ?_) hx hq
        refine t_imm (x' := { x with selfDelim := false }) (h' := .clobEnd 125) (b' := false) hq rfl ?_ (by simp) ?_
        · rw [hstep _ rfl (by decide)]
          simp [mkClobEnd, andGo]
        · have hbad : ∀ (c : Nat), c ≠ 125 → handle F P.env { x with selfDelim := false } (.clobEnd 125) { code := c } = .error .ionException := by
            intro c h3
            simp [handle, onClobEnd, h3]
          cases r with
          | nil => exact t_errNil h0 hq rfl (hbad _ (by decide))
          | cons c r => exact t_err h0 hq rfl (hbad _ (hr c r rfl)))
  refine at_lobStart (t_lobBlank (fun c hc => isWs_of (hw c hc)) ?_)
  refine t_imm (x' := sctx f as .clob []) (h' := .lobStart 1) (b' := false) rfl rfl rfl (by simp) ?_
  refine t_quoteImm (x' := sctx f as .clob []) (h' := .lobStart 2) (b' := false) (.inr rfl) rfl rfl rfl (by simp) ?_
  exact t_quoteImm (x' := sctx f as .clob []) (h' := .long false true 0 true true) (b' := false) (.inr rfl) rfl rfl rfl (by simp) ht

/-! ## Blobs -/

omit [Fate] in
theorem isB64_iff : isB64 c = true ↔ B64Char c := by
  constructor
  · intro h
    have key : ∀ c < 128, isB64 c = true → ∃ n < 64, c = Base64.digit n := by decide +kernel
    refine key c ?_ h
    simp only [isB64, isLetter, isDigit, Bool.or_eq_true, Bool.and_eq_true, decide_eq_true_eq] at h
    omega
  · rintro ⟨n, hn, rfl⟩
    exact isB64_digit hn

omit [Fate] in
theorem isWs_iff : isWs c = true ↔ IsSpace c := by
  simp only [isWs, isWsNotNl, isNewline, Bool.or_eq_true, decide_eq_true_eq, IsSpace]
  omega

/-- The characters of a blob: they are rejected, or the reader gets to their end. -/
theorem t_blobChars (h0 : Fate.o = some .ionException) {t : List Nat} {n k : Nat} (ht : BlobCount t n k) : ∀ {v : List Nat} {pv d m : Nat}, pv ≠ 125 →
    (∀ v pv d' m', pv ≠ 125 → d' + m' = d + m + n → m' = m + k → T F P false (bctx f as v) (.blobEnd pv d' m') false false r []) →
    T F P false (bctx f as v) (.blobEnd pv d m) false false (t ++ r) [] := by
  induction ht with
  | nil => exact fun hp h => h _ _ _ _ hp (by omega) (by omega)
  | space c t n k hc _ ih =>
    intro v pv d m hp h
    have h3 : c ≠ 125 := by simp only [IsSpace] at hc; omega
    refine t_imm (x' := bctx f as v) (h' := .blobEnd c d m) (b' := false) rfl rfl ?_ (by simp) (ih h3 h)
    simp [handle, onBlobEnd, isWs_of hc, hp]
  | digit c t n k hc _ ih =>
    intro v pv d m hp h
    have hb := isB64_iff.2 hc
    obtain ⟨h3, h4, h5, _⟩ := isB64_not hb
    by_cases h61 : pv = 61
    · refine t_err h0 rfl rfl ?_
      simp [handle, onBlobEnd, h3, h4, blobAction, hb, h61]
    · refine t_imm (x' := bctx f as (v ++ [c])) (h' := .blobEnd c (d + 1) m) (b' := false) rfl rfl ?_ (by simp)
        (ih h4 fun v pv d' m' h1 h2 h3 => h v pv d' m' h1 (by omega) h3)
      simp [handle, onBlobEnd, h3, h4, blobAction, hb, hp, h61, Ctx.push, bctx]
  | pad t n k _ ih =>
    intro v pv d m hp h
    refine t_imm (x' := bctx f as (v ++ [61])) (h' := .blobEnd 61 d (m + 1)) (b' := false) rfl rfl ?_ (by simp)
      (ih (by decide) fun v pv d' m' h1 h2 h3 => h v pv d' m' h1 (by omega) (by omega))
    simp [handle, onBlobEnd, show isWs 61 = false from rfl, show isB64 61 = false from rfl, blobAction, hp, Ctx.push, bctx]

/-- From the opening braces to the end of the characters of a blob.  If they are all whitespace, the reader does not yet know that it is a blob. -/
theorem t_blobStart (h0 : Fate.o = some .ionException) {t : List Nat} {n k : Nat} (ht : BlobCount t n k)
    (h1 : IsBlank t → T F P false (dec f as) (.lobStart 0) false false r [])
    (h2 : ¬ IsBlank t → ∀ v pv d m, pv ≠ 125 → d + m = n → m = k → T F P false (bctx f as v) (.blobEnd pv d m) false false r []) :
    T F P false (dec f as) (.lobStart 0) false false (t ++ r) [] := by
  induction ht with
  | nil => exact h1 (by simp [IsBlank])
  | space c t n k hc _ ih =>
    have hb : IsBlank (c :: t) ↔ IsBlank t := by
      constructor
      · exact fun h d hd => h d (by simp [hd])
      · intro h d hd
        rcases List.mem_cons.1 hd with rfl | hd
        · exact hc
        · exact h d hd
    rw [hb] at h1 h2
    refine t_imm (x' := dec f as) (h' := .lobStart 0) (b' := false) rfl rfl ?_ (by simp) (ih h1 h2)
    simp [handle, onLobStart, isWs_of hc]
  | digit c t n k hc hct _ =>
    have hb := isB64_iff.2 hc
    obtain ⟨h3, h4, h5, h6, h7⟩ := isB64_not hb
    have hnb : ¬ IsBlank (c :: t) := fun h => by
      have := isWs_of (h c (by simp))
      rw [h3] at this
      cases this
    refine t_imm (x' := bctx f as [c]) (h' := .blobEnd c 1 0) (b' := false) rfl rfl ?_ (by simp) (t_blobChars h0 hct h4 fun v pv d m h8 h9 h10 => h2 hnb v pv d m h8 (by omega) (by omega))
    simp [handle, onLobStart, h3, h4, h5, h6, h7, mkBlobEnd, blobAction, hb, Ctx.push, bctx, dec, andGo]
  | pad t n k hct _ =>
    have hnb : ¬ IsBlank (61 :: t) := fun h => by
      have := h 61 (by simp)
      simp only [IsSpace] at this
      omega
    exact t_imm (x' := bctx f as [61]) (h' := .blobEnd 61 0 1) (b' := false) rfl rfl rfl (by simp) (t_blobChars h0 hct (by decide) fun v pv d m h8 h9 h10 => h2 hnb v pv d m h8 (by omega) (by omega))

omit [Fate] in
theorem blobCount_of {t : List Nat} (h : ∀ c ∈ t, BlobChar c) : ∃ n k, BlobCount t n k := by
  induction t with
  | nil => exact ⟨0, 0, .nil⟩
  | cons c t ih =>
    obtain ⟨n, k, ht⟩ := ih fun d hd => h d (by simp [hd])
    rcases h c (by simp) with hc | hc | rfl
    · exact ⟨n, k, .space c t n k hc ht⟩
    · exact ⟨n + 1, k, .digit c t n k hc ht⟩
    · exact ⟨n + 1, k + 1, .pad t n k ht⟩

omit [Fate] in
theorem onBlobEnd_bad {v : Env} {pv d m : Nat} (hc : ¬ BlobChar c) (h125 : c ≠ 125) : onBlobEnd v pv d m x { code := c } = .error .ionException := by
  simp only [BlobChar, not_or] at hc
  have h1 : isWs c = false := Bool.eq_false_iff.2 fun h => hc.1 (isWs_iff.1 h)
  have h2 : isB64 c = false := Bool.eq_false_iff.2 fun h => hc.2.1 (isB64_iff.1 h)
  simp [onBlobEnd, h1, h125, blobAction, h2, hc.2.2]

omit [Fate] in
theorem onBlobEnd_brace {v : Env} {d m : Nat} (h125 : c ≠ 125) : onBlobEnd v 125 d m x { code := c } = .error .ionException := by
  simp only [onBlobEnd, blobAction, h125, if_false, true_or, if_true]
  repeat' split
  all_goals first | rfl | (next h => split at h <;> (try split at h) <;> simp_all)

omit [Fate] in
theorem eof_notBlob : ¬ BlobChar EOF := by
  rintro (h | h | h)
  · simp only [IsSpace, EOF] at h; omega
  · exact absurd (isB64_iff.2 h) (by decide)
  · exact absurd h (by decide)

/-- One closing brace, and no second one. -/
theorem t_badBrace (h0 : Fate.o = some .ionException) (hr : NoNext (· = 125) r) {v : List Nat} {d m : Nat} : T F P false (bctx f as v) (.blobEnd 125 d m) false false r [] := by
  cases r with
  | nil => exact t_errNil h0 rfl rfl (by simp only [handle]; exact onBlobEnd_brace (by decide))
  | cons c r => exact t_err h0 rfl rfl (by simp only [handle]; exact onBlobEnd_brace (hr c r rfl))

theorem t_blobBrace {v : List Nat} {pv d m : Nat} (hp : pv ≠ 125) (h : T F P false (bctx f as v) (.blobEnd 125 d m) false false r es) : T F P false (bctx f as v) (.blobEnd pv d m) false false (125 :: r) es := by
  refine t_imm (x' := bctx f as v) (h' := .blobEnd 125 d m) (b' := false) rfl rfl ?_ (by simp) h
  simp [handle, onBlobEnd, show isWs 125 = false from rfl, hp]

theorem t_lobBrace (h : T F P false (bctx f as []) (.blobEnd 125 0 0) false false r es) : T F P false (dec f as) (.lobStart 0) false false (125 :: r) es :=
  t_imm (x' := bctx f as []) (h' := .blobEnd 125 0 0) (b' := false) rfl rfl rfl (by simp) h

omit [Fate] in
theorem onLobStart_bad (hc : ¬ BlobChar c) (h125 : c ≠ 125) (h34 : c ≠ 34) (h39 : c ≠ 39) : onLobStart 0 x { code := c } = .error .ionException := by
  simp only [BlobChar, not_or] at hc
  have h1 : isWs c = false := Bool.eq_false_iff.2 fun h => hc.1 (isWs_iff.1 h)
  have h2 : isB64 c = false := Bool.eq_false_iff.2 fun h => hc.2.1 (isB64_iff.1 h)
  simp [onLobStart, h1, h125, h34, h39, mkBlobEnd, andGo, blobAction, h2, hc.2.2]

omit [Fate] in
theorem blank_count {t : List Nat} {n k : Nat} (ht : BlobCount t n k) (hb : IsBlank t) : n = 0 ∧ k = 0 := by
  induction ht with
  | nil => exact ⟨rfl, rfl⟩
  | space c t n k _ _ ih => exact ih fun d hd => hb d (by simp [hd])
  | digit c t n k hc _ _ =>
    have := isWs_of (hb c (by simp))
    rw [(isB64_not (isB64_iff.2 hc)).1] at this
    cases this
  | pad t n k _ _ =>
    have := hb 61 (by simp)
    simp only [IsSpace] at this
    omega

theorem at_badBlob (h0 : Fate.o = some .ionException) (hb : BadBlob r) : At F P false false (childOf f as) cm (123 :: 123 :: r) [] := by
  refine at_lobStart ?_
  cases hb with
  | cut _ ht =>
    obtain ⟨n, k, ht⟩ := blobCount_of ht
    have := t_blobStart (F := F) (P := P) (f := f) (as := as) (r := []) h0 ht (fun _ => t_errNil h0 rfl rfl (onLobStart_bad eof_notBlob (by decide) (by decide) (by decide)))
      (fun _ v pv d m _ _ _ => t_errNil h0 rfl rfl (by simp only [handle]; exact onBlobEnd_bad eof_notBlob (by decide)))
    simpa using this
  | char t c r ht hc h125 hq =>
    obtain ⟨n, k, ht⟩ := blobCount_of ht
    refine t_blobStart h0 ht (fun hbl => t_err h0 rfl rfl (onLobStart_bad hc h125 (fun h => hq (.inl h) hbl) (fun h => hq (.inr h) hbl)))
      (fun _ v pv d m _ _ _ => t_err h0 rfl rfl (by simp only [handle]; exact onBlobEnd_bad hc h125))
  | brace t r ht hr =>
    obtain ⟨n, k, ht⟩ := blobCount_of ht
    exact t_blobStart h0 ht (fun _ => t_lobBrace (t_badBrace h0 hr)) (fun _ v pv d m hp _ _ => t_blobBrace hp (t_badBrace h0 hr))
  | length t r n k ht hn =>
    refine t_blobStart h0 ht (fun hbl => ?_) (fun _ v pv d m hp h1 h2 => t_blobBrace hp (t_err h0 rfl rfl ?_))
    · obtain ⟨rfl, rfl⟩ := blank_count ht hbl
      simp at hn
    · have : m > 3 ∨ (d + m) % 4 ≠ 0 := by omega
      simp [handle, onBlobEnd, show isWs 125 = false from rfl, this]
  | padded t r c ht hc =>
    obtain ⟨n, k, ht⟩ := blobCount_of ht
    have hb := isB64_iff.2 hc
    obtain ⟨h3, h4, h5, h6, h7⟩ := isB64_not hb
    have hlast : ∀ {v : List Nat} {d m : Nat}, T F P false (bctx f as v) (.blobEnd 61 d m) false false (c :: r) [] := by
      intro v d m
      refine t_err h0 rfl rfl ?_
      simp [handle, onBlobEnd, h3, h4, blobAction, hb]
    refine t_blobStart h0 ht (fun _ => ?_) (fun _ v pv d m hp _ _ => ?_)
    · exact t_imm (x' := bctx f as [61]) (h' := .blobEnd 61 0 1) (b' := false) rfl rfl rfl (by simp) hlast
    · refine t_imm (x' := bctx f as (v ++ [61])) (h' := .blobEnd 61 d (m + 1)) (b' := false) rfl rfl ?_ (by simp) hlast
      simp [handle, onBlobEnd, show isWs 61 = false from rfl, show isB64 61 = false from rfl, blobAction, hp, Ctx.push, bctx]

/-! ## The end of the text after annotations -/

/-- The text ends after blanks, where a value must follow. -/
theorem events_cutBlank (h0 : Fate.o = some .ionException) {w : List Nat} (hw : ∀ c ∈ w, isWs c = true) :
    Events F ⟨P.outer, P.ty, false, false, false, false, some (dec f as), .head none⟩ w [] := by
  have key : ∀ (w : List Nat), (∀ c ∈ w, isWs c = true) → ∀ l, Run F l (.read false false fun c => .go ⟨P.outer, P.ty, false, false, false, false, some (dec f as), .head (some c)⟩) w [] := by
    intro w
    induction w with
    | nil => exact fun _ _ => run_cut h0
    | cons c w ih =>
      intro hw l
      have hc := hw c (by simp)
      refine run_read (run_go (events_go ?_))
      have h1 : isEnd P.ty c = false ∧ c ≠ 44 ∧ c ≠ EOF := by
        have h2 := isWs_iff.1 hc
        simp only [IsSpace] at h2
        refine ⟨?_, by omega, by simp only [EOF]; omega⟩
        rcases P with ⟨o, _ | t⟩
        · rfl
        · cases t <;> simp [isEnd] <;> omega
      simp only [next, onHead, h1.1, h1.2.1, h1.2.2, decide_false, Bool.and_false, Bool.or_self, Bool.false_eq_true, if_false, hc, if_true]
      exact ih (fun d hd => hw d (by simp [hd])) _
  refine events_go ?_
  simp only [next, onHead]
  exact key w hw _

theorem symK_annotationEnd (h0 : Fate.o = some .ionException) {t : Tok} {w : List Nat} (hw : ∀ c ∈ w, isWs c = true) : SymK F P false f as t (58 :: 58 :: w) [] := by
  intro cf x hx
  refine events_go ?_
  have h1 : isWs 58 = false := by decide
  have h2 : (58 : Nat) ≠ EOF := by decide
  simp only [next, onHead, isEnd_colon, h1, h2, show (58 : Nat) ≠ 44 from by decide, decide_false, Bool.and_false, Bool.or_false, Bool.false_eq_true, if_false,
    onStart, show (58 : Nat) ≠ 47 from by decide, St.pending, Option.bind_some, hx.pending, if_true]
  refine run_read ?_
  have h3 : x.setAnnotation = .ok (dec f (as ++ [t.regular])) := by
    simp only [Ctx.setAnnotation, hx.pending, hx.value, ne_eq, not_true_eq_false, if_false, Except.ok.injEq]
    obtain ⟨e1, e2, e3, e4, e5, e6, e7⟩ := hx
    cases x
    simp_all [dec]
  simp only [if_true, h3]
  exact run_go (events_cutBlank h0 hw)

theorem at_annsEnd (h0 : Fate.o = some .ionException) (hsx : P.ty = some .sexp → P.outer ≠ []) {anns : List Nat} {as' : List TSym} (ha : IsAnns anns as') :
    ∀ {as : List SymbolToken} {cm : Bool}, anns ≠ [] → At F P false false (childOf f as) cm anns [] := by
  induction ha with
  | nil => exact fun h => absurd rfl h
  | cons s g w rest a as' hs hg hb hw hrest ih =>
    intro as cm _
    refine at_sym hs (follow_colon hg) (.inr (.inl (gap_enders hg fun _ => (by decide : 58 ∈ enders)))) (fun h0 => ⟨hb h0, gap_noQuote hg fun _ => (by decide : 58 ≠ 39), (by decide : 58 ≠ 47)⟩) (by simp) fun t ht => ⟨fun h1 => ?_, ?_⟩
    · rcases ht with ⟨_, rfl⟩ | ⟨h2, _⟩
      · cases a <;> exact ⟨_, rfl⟩
      · simp only [Bool.not_false, Bool.and_true, Bool.and_eq_true, decide_eq_true_eq, List.length_eq_zero_iff, List.isEmpty_iff] at h2
        exact absurd h2.1 (hsx h1)
    by_cases hr : rest = []
    · subst hr
      rw [List.append_nil]
      exact symK_annotationEnd h0 (blank_ws hw)
    · exact symK_annotation (fun h => absurd h (by simp [hr])) (at_blank (blank_ws hw) (fun h => absurd h hr) (ih hr))

theorem at_decorationsEnd (h0 : Fate.o = some .ionException) (hp : Same P p) {name anns : List Nat} {f : Option TSym} {as : List TSym}
    (hn : IsName p name f) (ha : IsAnns anns as) (hne : name ++ anns ≠ []) : At F P (decide (P.ty = some .struct)) false none cm (name ++ anns) [] := by
  by_cases h1 : P.outer = []
  · obtain rfl := hp.top h1
    cases hn
    have h2 : P.ty ≠ some .struct := by rw [hp.ty]; simp
    rw [List.nil_append, decide_eq_false h2]
    exact at_annsEnd (f := none) (as := []) h0 hp.sexp ha hne
  · have := at_decorations (F := F) (cm := cm) (r := []) (es := []) hp hn ha (fun _ => h1) fun _ cm => ⟨rfl, .inr ⟨h1, h0⟩⟩
    simpa using this
end
end Ion.TextReader
