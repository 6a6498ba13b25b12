import Verif.TextSymbols
import Verif.Base64Spec
set_option linter.unusedSimpArgs false
/-!
# Scalars, as the text reader reads them
-/
namespace Ion.TextReader
open Ion
variable [Fate]

/-- The event of a scalar. -/
def scalarEv (f : Option SymbolToken) (as : List SymbolToken) (d : Nat) (ty : IonType) (v : Option PyVal) : IonEvent :=
  { eventType := .scalar, ionType := some ty, value := .ok v, fieldName := f.map .tok, annotations := as.map .tok, depth := some d }

/-- What may follow a value. -/
structure VEnd (P : Loc) (g r : List Nat) : Prop where
  follow : Follow P g r
  noColon : ∀ r', r ≠ 58 :: r'
  ender : (g ++ r).headD EOF ∈ enders
  noSlash : g = [] → r.headD 0 ≠ 47

/-- The characters that may follow a value. -/
def vends : List Nat := [EOF, 32, 9, 10, 13, 44, 93, 41, 125, 47, 123, 91, 40, 34, 39]

omit [Fate] in
theorem vends_head {P : Loc} {g r : List Nat} (hf : Follow P g r) (hnc : ∀ r', r ≠ 58 :: r') (h1 : (g ++ r).headD EOF ∈ enders) : (g ++ r).headD EOF ∈ vends := by
  have h2 : (g ++ r).headD EOF ≠ 58 := by
    cases hf.triv with
    | nil =>
      cases r with
      | nil => decide
      | cons c r =>
        intro h3
        simp only [List.nil_append, List.headD_cons] at h3
        exact hnc r (by rw [h3])
    | space w g hw _ =>
      simp only [List.cons_append, List.headD_cons]
      exact (isWs_not (isWs_of hw)).2.2.2.2
    | comment cm g hc _ =>
      obtain ⟨m, rfl⟩ := comment_head hc
      simp
  simp only [enders, List.mem_cons, List.not_mem_nil, or_false] at h1
  simp only [vends, List.mem_cons, List.not_mem_nil, or_false]
  omega

omit [Fate] in
theorem VEnd.head {P : Loc} {g r : List Nat} (h : VEnd P g r) : (g ++ r).headD EOF ∈ vends := vends_head h.follow h.noColon h.ender

omit [Fate] in
theorem vends_facts : ∀ c ∈ vends, endsValue c = true ∧ isIdChar c = false ∧ isDigit c = false ∧ c ≠ 46 ∧ c ≠ 95 ∧ c ≠ 58 ∧ c ≠ 48 ∧
    (c = EOF ∨ isTerm c = true) := by decide

section
variable {F : FloatText} {P : Loc} {fld : Bool} {x x' : Ctx} {h h' : H} {q b b' : Bool} {r g : List Nat} {es : List IonEvent} {cm : Bool} {c : Nat}
  {f : Option SymbolToken} {as : List SymbolToken} {t : Tok}

omit [Fate] in
theorem comment_noOp {cm r' : List Nat} (hc : TextSpec.IsComment cm) (h : cm ++ r = 47 :: r') : ¬ OpHead r' := by
  rintro ⟨d, m, rfl, h1, h2, _⟩
  cases hc <;> simp_all

/-- Whitespace before an operator that begins with a slash. -/
theorem After.blank (hg : ∀ c ∈ g, isWs c = true) (h : After F P r es) : After F P (g ++ r) es := by
  induction g with
  | nil => exact h
  | cons c g ih =>
    have h1 := ih fun d hd => hg d (by simp [hd])
    have hc := hg c (by simp)
    refine ⟨by simp, at1_ws hc (fun _ hn => by rw [hn]; rfl) h1.at1, fun r' h2 => ?_⟩
    simp only [List.cons_append, List.cons.injEq] at h2
    rw [h2.1] at hc
    cases hc

theorem Rest.idleGap (hg : TextSpec.IsTrivia g) (hs : r.headD 0 ≠ 47) (h : Rest F P r es) : At F P false P.env.isDelimited none P.outer.isEmpty (g ++ r) es :=
  at_trivia hg (fun hn => by rw [hn]; rfl) (fun _ => rfl) (h.idle hs)

theorem Rest.gap (hg : Follow P g r) (h : Rest F P r es) : After F P (g ++ r) es := by
  by_cases h47 : r.headD 0 = 47
  · exact After.blank (fun c hc => isWs_of (hg.blank h47 c hc)) h.toAfter
  · refine .of_at (fun hn => h.nil (List.append_eq_nil_iff.1 hn).2) (h.idleGap hg.triv h47) fun r' h1 => ?_
    cases hg.triv with
    | nil => rw [List.nil_append] at h1; rw [h1] at h47; exact absurd rfl h47
    | space c g hc _ =>
      simp only [List.cons_append, List.cons.injEq] at h1
      rw [h1.1] at hc
      simp [TextSpec.IsSpace] at hc
    | comment cm g hc _ =>
      rw [List.append_assoc] at h1
      exact comment_noOp hc h1

/-- The first character of a value. -/
theorem at_value (hc : plainStart P c = true) (ht : valueTable P.env c (dec f as) = .ok (x, h)) (hq : (decide (c = 34) || decide (c = 39)) = q)
    (hr : T F P false x h q true r es) : At F P false false (childOf f as) cm (c :: r) es := by
  subst hq
  exact at_start hc (by simpa using ht) hr

/-- A character that the handler gives back. -/
theorem t_unread (hq : x.quoted = false) (hcs : isCS h = false) (hh : handle F P.env x h { code := c } = .ok { unread := some c, ctx := x', res := .imm h' })
    (hb : b' = true → flTy x'.ionType = true) (hr : T F P fld x' h' false b' (c :: r) es) : T F P fld x h false b (c :: r) es := by
  intro cm cf _
  refine events_go ?_
  simp only [next]
  rw [onToken_read hq hcs]
  refine run_read ?_
  have he : ∀ pc, St.env ⟨P.outer, P.ty, fld, false, cm, cf, some x, pc⟩ = P.env := fun _ => rfl
  simp only [onChar, Option.getD_some, he, hh, onRes, Option.map_some]
  refine run_unread (run_go (hr _ _ fun h1 h2 h3 => ?_))
  exact flushable_of (hb h1) h2 h3

/-! ## Keywords -/

/-- The context while an unquoted symbol or keyword is read. -/
def kctx (f : Option SymbolToken) (as : List SymbolToken) (v : List Nat) : Ctx := { dec f as with value := v, isText := true, ionType := some .symbol }

theorem t_word {p cs : List Nat} (hc : ∀ c ∈ cs, isIdChar c = true) (hp : ∀ n ≤ cs.length, p ++ cs.take n ∈ kwPre)
    (hr : T F P false (kctx f as (p ++ cs)) (.keyword (kwState false (p ++ cs))) false true r es) :
    T F P false (kctx f as p) (.keyword (kwState false p)) false true (cs ++ r) es := by
  induction cs generalizing p with
  | nil => simpa using hr
  | cons c cs ih =>
    have h0 : p ∈ kwPre := by simpa using hp 0 (by simp)
    have h1 : p ++ [c] ∈ kwPre := by simpa using hp 1 (by simp)
    rcases kw_next h0 (hc c (by simp)) (v := P.env) (fld := false) (x := kctx f as p) with ⟨_, h2⟩ | ⟨h2, _⟩
    · refine t_imm (x' := kctx f as (p ++ [c])) rfl rfl (by simp only [handle, h2]; rfl) (fun _ => rfl) (ih (fun d hd => hc d (by simp [hd])) (fun n hn => ?_) (by simpa using hr))
      have := hp (n + 1) (by simpa using hn)
      simpa using this
    · exact absurd h1 h2

theorem at_word {p0 : Nat} {cs : List Nat} (h0 : p0 = 110 ∨ p0 = 116 ∨ p0 = 102) (hc : ∀ c ∈ cs, isIdChar c = true) (hp : ∀ n ≤ cs.length, p0 :: cs.take n ∈ kwPre)
    (hr : T F P false (kctx f as (p0 :: cs)) (.keyword (kwState false (p0 :: cs))) false true r es) :
    At F P false false (childOf f as) cm (p0 :: cs ++ r) es := by
  have hst : isIdStart p0 = true := by rcases h0 with rfl | rfl | rfl <;> decide
  refine at_value (x := kctx f as [p0]) (h := .keyword (kwState false [p0])) (q := false) (plain_of_idStart (.inl hst) P) ?_ ?_ (t_word hc hp hr)
  · rcases h0 with rfl | rfl | rfl <;> rfl
  · rcases h0 with rfl | rfl | rfl <;> rfl

/-- What may follow a keyword. -/
structure KEnd (P : Loc) (g r : List Nat) : Prop where
  follow : Follow P g r
  noColon : ∀ r', r ≠ 58 :: r'
  ender : Ender P ((g ++ r).headD EOF)

omit [Fate] in
theorem VEnd.word (h : VEnd P g r) : KEnd P g r := ⟨h.follow, h.noColon, .inl h.ender⟩

omit [Fate] in
theorem KEnd.head (h : KEnd P g r) : (endsValue ((g ++ r).headD EOF) || P.env.inSexp && isOp ((g ++ r).headD EOF)) = true ∧ (g ++ r).headD EOF ≠ 58 := by
  rcases h.ender with h1 | ⟨h1, h2⟩
  · have h3 := vends_facts _ (vends_head h.follow h.noColon h1)
    exact ⟨by rw [h3.1]; rfl, h3.2.2.2.2.2.1⟩
  · refine ⟨by rw [h2]; simp [Env.inSexp, Loc.env, h1], fun h3 => ?_⟩
    rw [h3] at h2
    exact absurd h2 (by decide)

theorem t_kwEnd {p : List Nat} (hp : p ∈ TextSpec.reserved) (hv : KEnd P g r) (hdot : p = [110, 117, 108, 108] → (g ++ r).headD EOF ≠ 46) (h : Rest F P r es) (ty : IonType) (v : Option PyVal)
    (hpv : (p, ty, v) ∈ [([110, 117, 108, 108], .null, none), ([110, 97, 110], .float, some (.float NAN)), ([116, 114, 117, 101], .bool, some (.bool true)),
      ([102, 97, 108, 115, 101], .bool, some (.bool false))]) :
    T F P false (kctx f as p) (.keyword (kwState false p)) false true (g ++ r) (scalarEv f as P.outer.length ty v :: es) := by
  refine t_end (x' := kctx f as p) rfl rfl ?_ rfl rfl ⟨by simp [scalarEv], rfl⟩ (fun _ => rfl) (h.gap hv.follow)
  obtain ⟨hc, hc2⟩ := hv.head
  generalize (g ++ r).headD EOF = c at hc hc2 hdot ⊢
  simp only [List.mem_cons, Prod.mk.injEq, List.not_mem_nil, or_false] at hpv
  have hck : ∀ (k : Kw) (i : Nat) (x : Ctx), k.suffix[i]? = none → (k = .null → c ≠ 46) → checkKeyword P.env k false i x c = .ok (true, some (.event (k.event P.env x))) := by
    intro k i x h1 h2
    have h3 : ¬ (k = .null ∧ c = 46) := fun h => h2 h.1 h.2
    simp only [checkKeyword, h1, h3, if_false, Bool.false_eq_true]
    by_cases he : endsValue c = true
    · simp [he]
    · have he : endsValue c = false := by simpa using he
      rw [he, Bool.false_or] at hc
      simp only [he, hc2, hc, if_true, if_false, Bool.false_eq_true]
  rcases hpv with ⟨rfl, rfl, rfl⟩ | ⟨rfl, rfl, rfl⟩ | ⟨rfl, rfl, rfl⟩ | ⟨rfl, rfl, rfl⟩
  · have := hck .null 3 (kctx f as [110, 117, 108, 108]) rfl (fun _ => hdot rfl)
    simp only [handle, onKeyword, keywordChecks, kwState, List.isPrefixOf, bind, Except.bind, pure, Except.pure]
    simp [this]
    rfl
  · have := hck .nan 2 (kctx f as [110, 97, 110]) rfl (fun h => by cases h)
    simp only [handle, onKeyword, keywordChecks, kwState, List.isPrefixOf, bind, Except.bind, pure, Except.pure]
    simp [this]
    rfl
  · have := hck .true_ 3 (kctx f as [116, 114, 117, 101]) rfl (fun h => by cases h)
    simp only [handle, onKeyword, keywordChecks, kwState, List.isPrefixOf, bind, Except.bind, pure, Except.pure]
    simp [this]
    rfl
  · have := hck .false_ 4 (kctx f as [102, 97, 108, 115, 101]) rfl (fun h => by cases h)
    simp only [handle, onKeyword, keywordChecks, kwState, List.isPrefixOf, bind, Except.bind, pure, Except.pure]
    simp [this]
    rfl

omit [Fate] in
theorem pre_all {p0 : Nat} {cs : List Nat} (h : (List.range (cs.length + 1)).all (fun n => decide (p0 :: cs.take n ∈ kwPre)) = true) :
    ∀ n ≤ cs.length, p0 :: cs.take n ∈ kwPre := by
  intro n hn
  simp only [List.all_eq_true, List.mem_range, decide_eq_true_eq] at h
  exact h n (by omega)

theorem at_keyword {p : List Nat} (hv : KEnd P g r) (hdot : p = [110, 117, 108, 108] → (g ++ r).headD EOF ≠ 46) (h : Rest F P r es) (ty : IonType) (v : Option PyVal)
    (hpv : (p, ty, v) ∈ [([110, 117, 108, 108], .null, none), ([110, 97, 110], .float, some (.float NAN)), ([116, 114, 117, 101], .bool, some (.bool true)),
      ([102, 97, 108, 115, 101], .bool, some (.bool false))]) :
    At F P false false (childOf f as) cm (p ++ (g ++ r)) (scalarEv f as P.outer.length ty v :: es) := by
  have hpv' := hpv
  simp only [List.mem_cons, Prod.mk.injEq, List.not_mem_nil, or_false] at hpv
  rcases hpv with ⟨rfl, rfl, rfl⟩ | ⟨rfl, rfl, rfl⟩ | ⟨rfl, rfl, rfl⟩ | ⟨rfl, rfl, rfl⟩
  · exact at_word (.inl rfl) (by decide) (pre_all (by decide)) (t_kwEnd (by decide) hv hdot h _ _ hpv')
  · exact at_word (.inl rfl) (by decide) (pre_all (by decide)) (t_kwEnd (by decide) hv hdot h _ _ hpv')
  · exact at_word (.inr (.inl rfl)) (by decide) (pre_all (by decide)) (t_kwEnd (by decide) hv hdot h _ _ hpv')
  · exact at_word (.inr (.inr rfl)) (by decide) (pre_all (by decide)) (t_kwEnd (by decide) hv hdot h _ _ hpv')

/-! ## Typed nulls -/

/-- The characters lead from one node to another. -/
def NullNode.walk : NullNode → List Nat → Option NullNode
  | n, [] => some n
  | n, c :: cs => match n.next c with
    | none => none
    | some n => n.walk cs

theorem t_nullName {ty : IonType} {cs : List Nat} (hv : KEnd P g r) (h : Rest F P r es) : ∀ {n : NullNode}, n.walk cs = some (.leaf ty []) →
    T F P false (kctx f as [110, 117, 108, 108]) (.typedNull n) false true (cs ++ (g ++ r)) (scalarEv f as P.outer.length ty none :: es) := by
  induction cs with
  | nil =>
    intro n hn
    simp only [NullNode.walk, Option.some.injEq] at hn
    subst hn
    rw [List.nil_append]
    refine t_end (x' := kctx f as [110, 117, 108, 108]) rfl rfl ?_ rfl rfl ⟨by simp [scalarEv], rfl⟩ (fun _ => rfl) (h.gap hv.follow)
    have hc := hv.head.1
    simp only [handle, onTypedNull, hc, if_true]
    rfl
  | cons c cs ih =>
    intro n hn
    simp only [NullNode.walk] at hn
    cases hx : n.next c with
    | none => rw [hx] at hn; cases hn
    | some n' =>
      rw [hx] at hn
      refine t_imm (x' := kctx f as [110, 117, 108, 108]) (h' := .typedNull n') rfl rfl ?_ (fun _ => rfl) (ih hn)
      cases n with
      | leaf ty l =>
        cases l with
        | nil => simp [NullNode.next] at hx
        | cons a l => simp only [handle, onTypedNull, hx]
      | starts => simp only [handle, onTypedNull, hx]
      | s => simp only [handle, onTypedNull, hx]
      | st => simp only [handle, onTypedNull, hx]
      | str => simp only [handle, onTypedNull, hx]
      | b => simp only [handle, onTypedNull, hx]

theorem at_typedNull (ty : IonType) (hv : KEnd P g r) (h : Rest F P r es) :
    At F P false false (childOf f as) cm (asc ['n','u','l','l','.'] ++ TextSpec.typeName ty ++ (g ++ r)) (scalarEv f as P.outer.length ty none :: es) := by
  have hw : NullNode.starts.walk (TextSpec.typeName ty) = some (.leaf ty []) := by cases ty <;> rfl
  have : asc ['n','u','l','l','.'] ++ TextSpec.typeName ty ++ (g ++ r) = (110 :: [117, 108, 108]) ++ (46 :: (TextSpec.typeName ty ++ (g ++ r))) := by
    simp [asc]
  rw [this]
  refine at_word (.inl rfl) (by decide) (pre_all (by decide)) ?_
  exact t_imm (x' := kctx f as [110, 117, 108, 108]) (h' := .typedNull .starts) rfl rfl rfl (fun _ => rfl) (t_nullName hv h hw)

/-! ## Infinities -/

/-- The context of a number. -/
def nctx (f : Option SymbolToken) (as : List SymbolToken) (ty : IonType) (v : List Nat) : Ctx := { dec f as with value := v, ionType := some ty }

omit [Fate] in
theorem plainStart_of {c : Nat} (hc : c ∈ [45, 43, 123, 40, 91, 34] ∨ isDigit c = true) (P : Loc) : plainStart P c = true := by
  have key : ∀ c < 128, (c ∈ [45, 43, 123, 40, 91, 34] ∨ isDigit c = true) → isWs c = false ∧ c ≠ 44 ∧ c ≠ 47 ∧ c ≠ 125 ∧ c ≠ 93 ∧ c ≠ 41 := by decide +kernel
  have hlt : c < 128 := by
    simp only [isDigit, Bool.and_eq_true, decide_eq_true_eq, List.mem_cons, List.not_mem_nil, or_false] at hc
    omega
  obtain ⟨h1, h2, h3, h4, h5, h6⟩ := key c hlt hc
  have h7 : c ≠ EOF := by simp only [EOF]; omega
  have h8 : isEnd P.ty c = false := by
    rcases P with ⟨o, _ | t⟩
    · rfl
    · cases t <;> simp [isEnd, h4, h5, h6]
  simp [plainStart, h1, h2, h3, h7, h8]

theorem t_inf {neg : Bool} {v : List Nat} {ty : Option IonType} (hv : KEnd P g r) (h : Rest F P r es) :
    T F P false { dec f as with value := v, ionType := ty } (.inf neg 0) false true ([105, 110, 102] ++ (g ++ r))
      (scalarEv f as P.outer.length .float (some (.float (if neg then NEG_INF else POS_INF))) :: es) := by
  have hst : ({ dec f as with value := v, ionType := ty } : Ctx).setType (some .float) = nctx f as .float v := by
    simp only [Ctx.setType, nctx]
    by_cases h : ty = some .float
    · simp [h]
    · simp [h, dec]
  refine t_imm (b' := true) (x' := nctx f as .float v) (h' := .inf neg 1) rfl rfl (by simp only [handle, onInf, hst]; rfl) (fun _ => rfl) ?_
  refine t_imm (b' := true) (x' := nctx f as .float v) (h' := .inf neg 2) rfl rfl rfl (fun _ => rfl) ?_
  refine t_imm (b' := true) (x' := nctx f as .float v) (h' := .inf neg 3) rfl rfl rfl (fun _ => rfl) ?_
  show T F P false _ _ false true (g ++ r) _
  refine t_end (x' := nctx f as .float v) rfl rfl ?_ rfl rfl ⟨by simp [scalarEv], rfl⟩ (fun _ => rfl) (h.gap hv.follow)
  have hc := hv.head.1
  simp only [handle, onInf, infSuffix, List.getElem?_cons_succ, List.getElem?_nil, hc, if_true]
  rfl

theorem at_posInf (hv : KEnd P g r) (h : Rest F P r es) :
    At F P false false (childOf f as) cm (asc ['+','i','n','f'] ++ (g ++ r)) (scalarEv f as P.outer.length .float (some (.float POS_INF)) :: es) := by
  refine at_value (x := { dec f as with value := [43], ionType := none }) (h := .inf false 0) (q := false) (plainStart_of (.inl (by decide)) P) rfl rfl ?_
  exact t_inf (neg := false) hv h

theorem at_negInf (hv : KEnd P g r) (h : Rest F P r es) :
    At F P false false (childOf f as) cm (asc ['-','i','n','f'] ++ (g ++ r)) (scalarEv f as P.outer.length .float (some (.float NEG_INF)) :: es) := by
  refine at_value (x := nctx f as .int [45]) (h := .negStart) (q := false) (plainStart_of (.inl (by decide)) P) rfl rfl ?_
  refine t_unread (x' := nctx f as .int [45]) (h' := .inf true 0) (b' := true) rfl rfl ?_ (fun _ => rfl) (t_inf (neg := true) (ty := some .int) hv h)
  rfl

/-! ## Numbers -/

/-- The handlers after the integer part of a number. -/
def IntH (h : H) : Prop := h = .zeroStart ∨ h = .number ∨ ∃ p, isDigit p = true ∧ h = .numeric .whole p

omit [Fate] in
theorem digit_not {d : Nat} (hd : isDigit d = true) : endsValue d = false ∧ d ≠ 95 ∧ isSign d = false ∧ d ≠ 46 ∧ d ≠ 45 ∧ d ≠ 43 ∧ d ≠ 101 ∧ isDecExp d = false ∧ isFloatExp d = false := by
  have key : ∀ d < 128, isDigit d = true → endsValue d = false ∧ d ≠ 95 ∧ isSign d = false ∧ d ≠ 46 ∧ d ≠ 45 ∧ d ≠ 43 ∧ d ≠ 101 ∧ isDecExp d = false ∧ isFloatExp d = false := by
    decide +kernel
  have hlt : d < 128 := by
    simp only [isDigit, Bool.and_eq_true, decide_eq_true_eq] at hd
    omega
  exact key d hlt hd

/-- The end of a number or timestamp: if a slash follows, it is that of a comment, and the event comes before the comment. -/
theorem t_numEnd {ty : IonType} {v : List Nat} {e : IonEvent} (hty : flTy (some ty) = true) (hcs : isCS h = false)
    (hh : handle F P.env (nctx f as ty v) h { code := (g ++ r).headD EOF } = endNumber (nctx f as ty v) { code := (g ++ r).headD EOF } e)
    (he : e.eventType ≠ .containerStart ∧ e.eventType.isStreamSignal = false) (hv : VEnd P g r) (ha : Rest F P r es) :
    T F P false (nctx f as ty v) h false true (g ++ r) (e :: es) := by
  by_cases h47 : (g ++ r).headD EOF = 47
  · rw [h47] at hh
    have hg : ∃ cm g', TextSpec.IsComment cm ∧ TextSpec.IsTrivia g' ∧ g = cm ++ g' := by
      cases hv.follow.triv with
      | nil =>
        cases r with
        | nil => exact absurd h47 (by decide)
        | cons c r =>
          exact absurd h47 (hv.noSlash rfl)
      | space w g hw _ =>
        rw [show w = 47 from h47] at hw
        exact absurd hw (by simp [TextSpec.IsSpace])
      | comment cm g hc hg => exact ⟨cm, g, hc, hg, rfl⟩
    obtain ⟨cm, g', hc, hg', rfl⟩ := hg
    rw [List.append_assoc]
    obtain ⟨c, b', lc, h1, h2, h3, h4⟩ := comment_cases hc (g' ++ r)
    rw [h1]
    refine t_imm (b' := true) (x' := nctx f as ty v) (h' := .slashEnd e) rfl hcs hh (fun _ => hty) ?_
    intro cm cf _
    refine events_go ?_
    simp only [next]
    rw [onToken_read rfl rfl]
    refine run_read ?_
    have he' : ∀ pc, St.env ⟨P.outer, P.ty, false, false, cm, cf, some (nctx f as ty v), pc⟩ = P.env := fun _ => rfl
    simp only [onChar, Option.getD_some, handle, h3, onRes]
    refine run_emit he.2 (events_go ?_)
    simp only [next, Bool.false_eq_true, if_false]
    refine run_go ?_
    refine h4 _ _ _ _ _ _ _ _ _ _ rfl rfl ?_
    refine commentEnd_idle (b1 := false) (b2 := lc) (lc := lc) (fun hn => by rw [hn]; rfl) (fun _ => rfl) (ha.idleGap hg' ?_)
    intro hr
    have := hv.follow.blank hr 47 (by obtain ⟨m, rfl⟩ := comment_head hc; simp)
    simp [TextSpec.IsSpace] at this
  · simp only [endNumber, h47, if_false] at hh
    exact t_end rfl hcs hh rfl rfl he (fun _ => rfl) (ha.gap hv.follow)

/-- Digits of a numeric component. -/
theorem t_digits {k : NumKind} {ty : IonType} (hk : k = .whole ∨ k = .fractional ∨ k = .decimal ∨ k = .float) (hty : flTy (some ty) = true) {ds : List Nat}
    (hd : TextSpec.Digits ds) : ∀ {v : List Nat} {p : Nat}, T F P false (nctx f as ty (v ++ ds)) (.numeric k (ds.getLastD p)) false true r es →
    T F P false (nctx f as ty v) (.numeric k p) false true (ds ++ r) es := by
  induction ds with
  | nil => intro v p hr; simpa using hr
  | cons d ds ih =>
    intro v p hr
    have h1 := isDigit_iff.2 (hd d (by simp))
    obtain ⟨h2, h3, _⟩ := digit_not h1
    refine t_imm (x' := nctx f as ty (v ++ [d])) (h' := .numeric k d) rfl rfl ?_ (fun _ => hty) (ih (fun e he => hd e (by simp [he])) ?_)
    · have h4 : k.charset d = true := by rcases hk with rfl | rfl | rfl | rfl <;> exact h1
      simp only [handle, onNumeric, h2, h3, h4, Bool.false_eq_true, if_false, if_true]
      rfl
    · rw [List.getLastD_cons] at hr
      rw [List.append_assoc]
      exact hr

/-- The characters that a numeric component takes. -/
def Takes (k : NumKind) (d : Nat) : Prop := k.charset d = true ∧ endsValue d = false ∧ d ≠ 95 ∧ k.badBefore d = false

omit [Fate] in
theorem takes_digit {k : NumKind} (hk : k = .whole ∨ k = .fractional ∨ k = .decimal ∨ k = .float) {d : Nat} (hd : isDigit d = true) : Takes k d := by
  obtain ⟨h1, h2, h3, h4, _, _, _, h5, h6⟩ := digit_not hd
  rcases hk with rfl | rfl | rfl | rfl <;> simp [Takes, NumKind.charset, NumKind.badBefore, hd, h1, h2, h3, h4, h5, h6]

/-- Digits of a numeric component with underscores between them. -/
theorem t_spelled {k : NumKind} {ty : IonType} (hty : flTy (some ty) = true) {t ds : List Nat} (hs : TextSpec.Spelled t ds) :
    (∀ d ∈ ds, Takes k d) → ∀ {v : List Nat} {p : Nat}, T F P false (nctx f as ty (v ++ ds)) (.numeric k (ds.getLastD p)) false true r es →
    T F P false (nctx f as ty v) (.numeric k p) false true (t ++ r) es := by
  induction hs with
  | nil => intro _ v p hr; simpa using hr
  | cons d t ds _ ih =>
    intro hd v p hr
    obtain ⟨h1, h2, h3, _⟩ := hd d (by simp)
    refine t_imm (x' := nctx f as ty (v ++ [d])) (h' := .numeric k d) rfl rfl ?_ (fun _ => hty) (ih (fun e he => hd e (by simp [he])) ?_)
    · simp only [handle, onNumeric, h2, h3, h1, Bool.false_eq_true, if_false, if_true]
      rfl
    · rw [List.getLastD_cons] at hr
      rw [List.append_assoc]
      exact hr
  | under d e a b t ds _ _ hst ih =>
    intro hd v p hr
    obtain ⟨h1, h2, h3, h4⟩ := hd d (by simp)
    refine t_imm (b' := true) (x' := nctx f as ty (v ++ [d])) (h' := .numeric k d) rfl rfl ?_ (fun _ => hty) ?_
    · simp only [handle, onNumeric, h2, h3, h1, Bool.false_eq_true, if_false, if_true]
      rfl
    refine t_imm (b' := true) (x' := nctx f as ty (v ++ [d])) (h' := .numeric k 95) rfl rfl ?_ (fun _ => hty) (ih (fun e he => hd e (by simp [he])) ?_)
    · simp only [handle, onNumeric, show endsValue 95 = false from rfl, h3, h4, Bool.false_eq_true, if_false, if_true, or_self]
    · cases hst <;>
      · simp only [List.getLastD_cons] at hr ⊢
        rw [List.append_assoc]
        exact hr

theorem t_numberDigits {ds : List Nat} : TextSpec.Digits ds → ∀ {v : List Nat},
    T F P false (nctx f as .int (v ++ ds)) .number false true r es → T F P false (nctx f as .int v) .number false true (ds ++ r) es := by
  induction ds with
  | nil => intro _ v hr; simpa using hr
  | cons d ds ih =>
    intro hd v hr
    have h1 := isDigit_iff.2 (hd d (by simp))
    obtain ⟨h2, h3, _⟩ := digit_not h1
    refine t_imm (x' := nctx f as .int (v ++ [d])) (h' := .number) rfl rfl ?_ (fun _ => rfl) (ih (fun e he => hd e (by simp [he])) (by simpa using hr))
    simp only [handle, h2, h1, Bool.false_eq_true, if_false, if_true]
    rfl

theorem t_number {t ds : List Nat} (hs : TextSpec.Spelled t ds) : TextSpec.Digits ds → ∀ {v : List Nat},
    (∀ h, IntH h → T F P false (nctx f as .int (v ++ ds)) h false true r es) → T F P false (nctx f as .int v) .number false true (t ++ r) es := by
  induction hs with
  | nil => intro _ v hr; simpa using hr _ (.inr (.inl rfl))
  | cons d t ds _ ih =>
    intro hd v hr
    have h1 := isDigit_iff.2 (hd d (by simp))
    obtain ⟨h2, h3, _⟩ := digit_not h1
    refine t_imm (x' := nctx f as .int (v ++ [d])) (h' := .number) rfl rfl ?_ (fun _ => rfl) (ih (fun e he => hd e (by simp [he])) (by simpa using hr))
    simp only [handle, h2, h1, Bool.false_eq_true, if_false, if_true]
    rfl
  | under d e a b t ds _ _ hst _ =>
    intro hd v hr
    have h1 := isDigit_iff.2 (hd d (by simp))
    obtain ⟨h2, h3, _⟩ := digit_not h1
    refine t_imm (b' := true) (x' := nctx f as .int (v ++ [d])) (h' := .number) rfl rfl ?_ (fun _ => rfl) ?_
    · simp only [handle, h2, h1, Bool.false_eq_true, if_false, if_true]
      rfl
    refine t_imm (b' := true) (x' := nctx f as .int (v ++ [d])) (h' := .numeric .whole 95) rfl rfl rfl (fun _ => rfl)
      (t_spelled rfl hst (fun c hc => takes_digit (.inl rfl) (isDigit_iff.2 (hd c (by simp [hc])))) ?_)
    have h4 : isDigit (ds.getLastD 95) = true := by
      have hne : ds ≠ [] := by cases hst <;> simp
      have := hd (ds.getLastD 95) (by
        rw [List.getLastD_eq_getLast?, List.getLast?_eq_some_getLast hne, Option.getD_some]
        exact List.mem_cons_of_mem _ (List.getLast_mem hne))
      exact isDigit_iff.2 this
    have := hr _ (.inr (.inr ⟨_, h4, rfl⟩))
    rw [List.append_assoc]
    exact this

omit [Fate] in
theorem digits_getLastD {ds : List Nat} (hd : TextSpec.Digits ds) {p : Nat} (hp : isDigit p = true) : isDigit (ds.getLastD p) = true := by
  induction ds generalizing p with
  | nil => exact hp
  | cons d ds ih =>
    rw [List.getLastD_cons]
    exact ih (fun e he => hd e (by simp [he])) (isDigit_iff.2 (hd d (by simp)))

omit [Fate] in
theorem spelled_one {t : List Nat} {d : Nat} (h : TextSpec.Spelled t [d]) : t = [d] := by
  cases h with
  | cons _ t _ h => cases h; rfl
  | under _ e a b t _ _ _ h => cases h

omit [Fate] in
theorem spelled_last {t ds : List Nat} {e : Nat} (h : TextSpec.Spelled (e :: t) ds) (hd : TextSpec.Digits ds) {p : Nat} : isDigit (ds.getLastD p) = true := by
  cases h with
  | cons _ t u h =>
    rw [List.getLastD_cons]
    exact digits_getLastD (fun c hc => hd c (by simp [hc])) (isDigit_iff.2 (hd _ (by simp)))
  | under _ e a b t u _ _ h =>
    rw [List.getLastD_cons]
    exact digits_getLastD (fun c hc => hd c (by simp [hc])) (isDigit_iff.2 (hd _ (by simp)))

omit [Fate] in
theorem spelled_split {t u v : List Nat} {c : Nat} (hc : ∀ x, ¬ TextSpec.HexDigit c x) : TextSpec.Spelled t (u ++ c :: v) →
    ∃ t1 t2, t = t1 ++ c :: t2 ∧ TextSpec.Spelled t1 u ∧ TextSpec.Spelled t2 v := by
  intro h
  generalize hw : u ++ c :: v = w at h
  induction h generalizing u with
  | nil => simp at hw
  | cons d t w hs ih =>
    cases u with
    | nil =>
      simp only [List.nil_append, List.cons.injEq] at hw
      obtain ⟨rfl, rfl⟩ := hw
      exact ⟨[], t, rfl, .nil, hs⟩
    | cons e u =>
      simp only [List.cons_append, List.cons.injEq] at hw
      obtain ⟨rfl, hw⟩ := hw
      obtain ⟨t1, t2, rfl, h1, h2⟩ := ih hw
      exact ⟨e :: t1, t2, rfl, .cons _ _ _ h1, h2⟩
  | under d e a b t w hd he hs ih =>
    cases u with
    | nil =>
      simp only [List.nil_append, List.cons.injEq] at hw
      exact absurd (hw.1 ▸ hd) (hc a)
    | cons e' u =>
      simp only [List.cons_append, List.cons.injEq] at hw
      obtain ⟨rfl, hw⟩ := hw
      obtain ⟨t1, t2, h0, h1, h2⟩ := ih hw
      cases t1 with
      | nil =>
        simp only [List.nil_append, List.cons.injEq] at h0
        exact absurd (h0.1 ▸ he) (hc b)
      | cons e'' t1 =>
        simp only [List.cons_append, List.cons.injEq] at h0
        obtain ⟨rfl, rfl⟩ := h0
        exact ⟨_ :: 95 :: _ :: t1, t2, rfl, .under _ _ _ _ _ _ hd he h1, h2⟩

omit [Fate] in
theorem uint_digits {ds : List Nat} (h : TextSpec.IsUInt ds) : ds ≠ [] ∧ TextSpec.Digits ds := by
  rcases h with rfl | ⟨d, r, rfl, h1, h2, h3⟩
  · exact ⟨by simp, by simp [TextSpec.Digits, TextSpec.Digit]⟩
  · refine ⟨by simp, fun c hc => ?_⟩
    rcases List.mem_cons.1 hc with rfl | hc
    · exact ⟨by omega, h2⟩
    · exact h3 c hc

/-- The integer part of a number. -/
theorem at_int {t ds : List Nat} (hd : TextSpec.IsUInt ds) (hs : TextSpec.Spelled t ds) (neg : Bool)
    (hr : ∀ h, IntH h → T F P false (nctx f as .int (TextSpec.signText neg ++ ds)) h false true r es) :
    At F P false false (childOf f as) cm (TextSpec.signText neg ++ (t ++ r)) es := by
  cases neg with
  | false =>
    simp only [TextSpec.signText, Bool.false_eq_true, if_false, List.nil_append] at hr ⊢
    rcases hd with rfl | ⟨d, ds, rfl, h1, h2, h3⟩
    · rw [spelled_one hs]
      exact at_value (x := nctx f as .int [48]) (h := .zeroStart) (q := false) (plainStart_of (.inr (by decide)) P) rfl rfl (hr _ (.inl rfl))
    · have hdig : isDigit d = true := by simp [isDigit]; omega
      have hn := t_number (F := F) (P := P) (f := f) (as := as) (r := r) (es := es) (v := []) hs (uint_digits (.inr ⟨d, ds, rfl, h1, h2, h3⟩)).2 (by simpa using hr)
      have hv : valueTable P.env d (dec f as) = .ok (nctx f as .int [d], .number) := by
        have : d ≠ 45 ∧ d ≠ 43 ∧ d ≠ 48 ∧ d ≠ 123 ∧ d ≠ 40 ∧ d ≠ 91 ∧ d ≠ 39 ∧ d ≠ 34 ∧ d ≠ 36 := by omega
        obtain ⟨n1, n2, n3, n4, n5, n6, n7, n8, n9⟩ := this
        simp only [valueTable, n1, n2, n3, n4, n5, n6, n7, n8, n9, if_false, hdig, if_true]
        rfl
      have hq : (decide (d = 34) || decide (d = 39)) = false := by
        have : d ≠ 39 ∧ d ≠ 34 := by omega
        simp [this]
      cases hs with
      | cons _ t _ hs =>
        exact at_value (q := false) (plainStart_of (.inr hdig) P) hv hq (t_number hs h3 hr)
      | under _ e a b t _ he1 he2 hst =>
        refine at_value (q := false) (plainStart_of (.inr hdig) P) hv hq ?_
        refine t_imm (b' := true) (x' := nctx f as .int [d]) (h' := .numeric .whole 95) rfl rfl rfl (fun _ => rfl)
          (t_spelled rfl hst (fun c hc => takes_digit (.inl rfl) (isDigit_iff.2 (h3 c hc))) ?_)
        refine hr _ (.inr (.inr ⟨_, ?_, rfl⟩))
        exact spelled_last hst h3
  | true =>
    simp only [TextSpec.signText, if_true] at hr ⊢
    refine at_value (x := nctx f as .int [45]) (h := .negStart) (q := false) (plainStart_of (.inl (by decide)) P) rfl rfl ?_
    rcases hd with rfl | ⟨d, ds, rfl, h1, h2, h3⟩
    · rw [spelled_one hs]
      exact t_imm (x' := nctx f as .int [45, 48]) (h' := .zeroStart) rfl rfl rfl (fun _ => rfl) (hr _ (.inl rfl))
    · have hdig : isDigit d = true := by simp [isDigit]; omega
      have h48 : d ≠ 48 := by omega
      have h95 : d ≠ 95 := by omega
      have hh : handle F P.env (nctx f as .int [45]) .negStart { code := d } = .ok { ctx := nctx f as .int [45, d], res := .imm (.numeric .whole d) } := by
        simp only [handle, h48, if_false, hdig, if_true, mkNumeric, h95, andGo]
        rfl
      cases hs with
      | cons _ t _ hs =>
        exact t_imm rfl rfl hh (fun _ => rfl) (t_spelled rfl hs (fun c hc => takes_digit (.inl rfl) (isDigit_iff.2 (h3 c hc)))
          (hr _ (.inr (.inr ⟨_, digits_getLastD h3 hdig, rfl⟩))))
      | under _ e a b t _ he1 he2 hst =>
        refine t_imm (b' := true) rfl rfl hh (fun _ => rfl) ?_
        refine t_imm (b' := true) (x' := nctx f as .int [45, d]) (h' := .numeric .whole 95) rfl rfl ?_ (fun _ => rfl)
          (t_spelled rfl hst (fun c hc => takes_digit (.inl rfl) (isDigit_iff.2 (h3 c hc))) ?_)
        · obtain ⟨_, _, _, h4⟩ := takes_digit (k := .whole) (.inl rfl) hdig
          simp only [handle, onNumeric, show endsValue 95 = false from rfl, h95, h4, Bool.false_eq_true, if_false, if_true, or_self]
        · exact hr _ (.inr (.inr ⟨_, spelled_last hst h3, rfl⟩))

omit [Fate] in
theorem intH_end {h : H} (hh : IntH h) {c : Nat} (hc : c ∈ vends) {v : List Nat} {ev : Env} :
    isCS h = false ∧ handle F ev (nctx f as .int v) h { code := c } =
      endNumber (nctx f as .int v) { code := c } ((nctx f as .int v).event ev.depth (some .int) (someVal .int (parseInt v))) := by
  obtain ⟨h1, _⟩ := vends_facts c hc
  rcases hh with rfl | rfl | ⟨p, hp, rfl⟩
  · simp only [handle, h1, if_true]
    exact ⟨rfl, rfl⟩
  · simp only [handle, h1, if_true]
    exact ⟨rfl, rfl⟩
  · obtain ⟨_, h95, _⟩ := digit_not hp
    refine ⟨rfl, ?_⟩
    simp only [handle, onNumeric, h1, if_true, NumKind.badEnd, h95, Bool.false_eq_true, or_self, if_false, NumKind.parse]
    rfl

/-- The handlers after the coefficient of a number, and the type so far. -/
def CoH (h : H) (ty : IonType) : Prop := (IntH h ∧ ty = .int) ∨ (∃ p, (isDigit p = true ∨ p = 46) ∧ h = .numeric .fractional p ∧ ty = .decimal)

omit [Fate] in
theorem intH_table {h : H} (hh : IntH h) {c : Nat} (hc : c = 46 ∨ isDecExp c = true ∨ isFloatExp c = true) {v : List Nat} {ev : Env} :
    isCS h = false ∧ handle F ev (nctx f as .int v) h { code := c } = andGo (wholeTable true c (nctx f as .int v)) := by
  have key : ∀ c < 128, (c = 46 ∨ isDecExp c = true ∨ isFloatExp c = true) → endsValue c = false ∧ c ≠ 66 ∧ c ≠ 98 ∧ c ≠ 88 ∧ c ≠ 120 ∧ isDigit c = false ∧ c ≠ 45 ∧ c ≠ 84 ∧ c ≠ 95 := by
    decide +kernel
  have hlt : c < 128 := by
    simp only [isDecExp, isFloatExp, Bool.or_eq_true, decide_eq_true_eq] at hc
    omega
  obtain ⟨h1, h2, h3, h4, h5, h6, h7, h8, h9⟩ := key c hlt hc
  rcases hh with rfl | rfl | ⟨p, hp, rfl⟩
  · exact ⟨rfl, by simp [handle, h1, h2, h3, h4, h5, h6, h7, h8, h9]⟩
  · exact ⟨rfl, by simp [handle, h1, h2, h3, h4, h5, h6, h7, h8, h9]⟩
  · have := (digit_not hp).2.1
    exact ⟨rfl, by simp [handle, onNumeric, NumKind.charset, NumKind.transition, this, h1, h2, h3, h4, h5, h6, h7, h8, h9]⟩

/-- The coefficient of a number, with a point. -/
theorem at_point {t ds fs : List Nat} (hd : TextSpec.IsUInt ds) (hfs : TextSpec.Digits fs) (hs : TextSpec.Spelled t (ds ++ 46 :: fs)) (neg : Bool)
    (hr : ∀ p, (isDigit p = true ∨ p = 46) → T F P false (nctx f as .decimal (TextSpec.signText neg ++ (ds ++ 46 :: fs))) (.numeric .fractional p) false true r es) :
    At F P false false (childOf f as) cm (TextSpec.signText neg ++ (t ++ r)) es := by
  obtain ⟨t1, t2, rfl, hs1, hs2⟩ := spelled_split (by intro x hx; cases hx <;> omega) hs
  rw [List.append_assoc, List.cons_append]
  refine at_int hd hs1 neg fun h hh => ?_
  have h1 := intH_table hh (c := 46) (F := F) (f := f) (as := as) (v := TextSpec.signText neg ++ ds) (ev := P.env) (.inl rfl)
  refine t_imm (x' := nctx f as .decimal (TextSpec.signText neg ++ ds ++ [46])) (h' := .numeric .fractional 46) rfl h1.1 (h1.2.trans ?_) (fun _ => rfl)
    (t_spelled rfl hs2 (fun c hc => takes_digit (.inr (.inl rfl)) (isDigit_iff.2 (hfs c hc))) ?_)
  · rfl
  · have hp : isDigit (fs.getLastD 46) = true ∨ fs.getLastD 46 = 46 := by
      cases fs with
      | nil => exact .inr rfl
      | cons d fs =>
        left
        rw [List.getLastD_cons]
        exact digits_getLastD (fun e he => hfs e (by simp [he])) (isDigit_iff.2 (hfs d (by simp)))
    have := hr _ hp
    simpa using this

/-- The coefficient of a number. -/
theorem at_coef {t co all : List Nat} {n : Nat} (hco : TextSpec.IsCoefficient co all n) (hs : TextSpec.Spelled t co) (neg : Bool)
    (hr : ∀ h ty, CoH h ty → T F P false (nctx f as ty (TextSpec.signText neg ++ co)) h false true r es) :
    At F P false false (childOf f as) cm (TextSpec.signText neg ++ (t ++ r)) es := by
  cases hco with
  | whole _ hd => exact at_int hd hs neg fun h hh => hr h _ (.inl ⟨hh, rfl⟩)
  | point ds fs hd hfs => exact at_point hd hfs hs neg fun p hp => hr _ _ (.inr ⟨p, hp, rfl, rfl⟩)

/-- The exponent of a number. -/
theorem t_exponent {ex : List Nat} {i : Int} (hex : TextSpec.IsExponent ex i) {k : NumKind} {ty : IonType} (hk : (k = .decimal ∧ ty = .decimal) ∨ (k = .float ∧ ty = .float))
    {e : Nat} (he : (k = .decimal → isDecExp e = true) ∧ (k = .float → isFloatExp e = true)) {v : List Nat} (hv : VEnd P g r) (h : Rest F P r es) {val : Option PyVal}
    (hval : k.parse F (v ++ ex) = .ok val) :
    T F P false (nctx f as ty v) (.numeric k e) false true (ex ++ (g ++ r)) (scalarEv f as P.outer.length ty val :: es) := by
  have hty : flTy (some ty) = true := by rcases hk with ⟨_, rfl⟩ | ⟨_, rfl⟩ <;> rfl
  have hend : ∀ {p : Nat}, isDigit p = true → T F P false (nctx f as ty (v ++ ex)) (.numeric k p) false true (g ++ r) (scalarEv f as P.outer.length ty val :: es) := by
    intro p hp
    refine t_numEnd hty rfl ?_ ⟨by simp [scalarEv], rfl⟩ hv h
    obtain ⟨h1, _⟩ := vends_facts _ hv.head
    obtain ⟨_, h95, h96, _, _, _, _, h97, h98⟩ := digit_not hp
    have hbe : k.badEnd p = false := by
      rcases hk with ⟨rfl, _⟩ | ⟨rfl, _⟩ <;> simp [NumKind.badEnd, NumKind.badBefore, h96, h97, h98]
    have hval' : k.parse F (nctx f as ty (v ++ ex)).value = .ok val := hval
    simp only [handle, onNumeric, h1, if_true, h95, hbe, Bool.false_eq_true, or_self, if_false, hval']
    rfl
  have hk' : k = .whole ∨ k = .fractional ∨ k = .decimal ∨ k = .float := by rcases hk with ⟨rfl, _⟩ | ⟨rfl, _⟩ <;> simp
  have hlast : ∀ {ds : List Nat} {p : Nat}, ds ≠ [] → TextSpec.Digits ds → isDigit (ds.getLastD p) = true := by
    intro ds p hne hds
    cases ds with
    | nil => exact absurd rfl hne
    | cons d ds =>
      rw [List.getLastD_cons]
      exact digits_getLastD (fun e he => hds e (by simp [he])) (isDigit_iff.2 (hds d (by simp)))
  have hsign : ∀ {c : Nat} {ds : List Nat}, c = 43 ∨ c = 45 → ds ≠ [] → TextSpec.Digits ds → ex = c :: ds →
      T F P false (nctx f as ty v) (.numeric k e) false true (c :: ds ++ (g ++ r)) (scalarEv f as P.outer.length ty val :: es) := by
    rintro c ds hc hne hds rfl
    refine t_imm (x' := nctx f as ty (v ++ [c])) (h' := .numeric k c) rfl rfl ?_ (fun _ => hty) (t_digits hk' hty hds ?_)
    · have h1 : endsValue c = false ∧ c ≠ 95 ∧ isDigit c = false ∧ isSign c = true := by rcases hc with rfl | rfl <;> decide
      have h2 : k.charset c = false := by rcases hk with ⟨rfl, _⟩ | ⟨rfl, _⟩ <;> exact h1.2.2.1
      simp only [handle, onNumeric, h1.1, h1.2.1, h2, Bool.false_eq_true, if_false]
      rcases hk with ⟨rfl, rfl⟩ | ⟨rfl, rfl⟩
      · simp only [NumKind.transition, h1.2.2.2, he.1 rfl, Bool.and_self, if_true]; rfl
      · simp only [NumKind.transition, h1.2.2.2, he.2 rfl, Bool.and_self, if_true]; rfl
    · have := hend (hlast hne hds (p := c))
      simpa using this
  cases hex with
  | none _ hne hds => exact t_digits hk' hty hds (hend (hlast hne hds))
  | plus ds hne hds => exact hsign (.inl rfl) hne hds rfl
  | minus ds hne hds => exact hsign (.inr rfl) hne hds rfl

/-! ## Parsing -/

omit [Fate] in
theorem all_digit {ds : List Nat} (h : TextSpec.Digits ds) : ds.all isDigit = true := List.all_eq_true.2 fun d hd => isDigit_iff.2 (h d hd)

omit [Fate] in
theorem digits_no45 {ds : List Nat} (h : TextSpec.Digits ds) : ∀ r, ds ≠ 45 :: r := by
  rintro r rfl
  have := h 45 (by simp)
  simp [TextSpec.Digit] at this

omit [Fate] in
theorem parseInt_digits {ds : List Nat} (hne : ds ≠ []) (h : TextSpec.Digits ds) : parseInt ds = .ok (TextSpec.decNum ds : Int) := by
  have h1 := digits_no45 h
  unfold parseInt
  split
  next r => exact absurd rfl (h1 _)
  next => rw [if_pos ⟨hne, all_digit h⟩]; rfl

omit [Fate] in
theorem parseInt_neg {ds : List Nat} (hne : ds ≠ []) (h : TextSpec.Digits ds) : parseInt (45 :: ds) = .ok (-(TextSpec.decNum ds : Int)) := by
  simp only [parseInt, ne_eq, hne, not_false_eq_true, all_digit h, and_self, if_true]
  rfl

omit [Fate] in
theorem parseInt_uint {ds : List Nat} (h : TextSpec.IsUInt ds) (neg : Bool) :
    parseInt (TextSpec.signText neg ++ ds) = .ok (if neg then -(TextSpec.decNum ds : Int) else TextSpec.decNum ds) := by
  obtain ⟨h1, h2⟩ := uint_digits h
  cases neg with
  | false => exact parseInt_digits h1 h2
  | true => exact parseInt_neg h1 h2

omit [Fate] in
theorem takeWhile_not {a : Nat} {l m : List Nat} (h : ∀ c ∈ l, c ≠ a) : (l ++ a :: m).takeWhile (· ≠ a) = l ∧ (l ++ a :: m).dropWhile (· ≠ a) = a :: m := by
  induction l with
  | nil => simp
  | cons c l ih =>
    have hc := h c (by simp)
    have := ih fun d hd => h d (by simp [hd])
    simpa [hc] using this

omit [Fate] in
theorem takeWhile_all {a : Nat} {l : List Nat} (h : ∀ c ∈ l, c ≠ a) : l.takeWhile (· ≠ a) = l ∧ l.dropWhile (· ≠ a) = [] := by
  induction l with
  | nil => simp
  | cons c l ih =>
    have hc := h c (by simp)
    have := ih fun d hd => h d (by simp [hd])
    simpa [hc] using this

omit [Fate] in
theorem digits_ne {ds : List Nat} (h : TextSpec.Digits ds) {a : Nat} (ha : ¬ TextSpec.Digit a) : ∀ c ∈ ds, c ≠ a := by
  rintro c hc rfl
  exact ha (h c hc)

omit [Fate] in
theorem coef_parts {co all : List Nat} {n : Nat} (hco : TextSpec.IsCoefficient co all n) :
    (∀ c ∈ co, c ≠ 101) ∧ (∀ r, co ≠ 45 :: r) ∧ co ≠ [] ∧ ∃ int frac, co.takeWhile (· ≠ 46) = int ∧ (co.dropWhile (· ≠ 46)).drop 1 = frac ∧ all = int ++ frac ∧ n = frac.length ∧
      all ≠ [] ∧ TextSpec.Digits all := by
  cases hco with
  | whole _ hd =>
    obtain ⟨h1, h2⟩ := uint_digits hd
    refine ⟨digits_ne h2 (by simp [TextSpec.Digit]), digits_no45 h2, h1, _, _, rfl, rfl, ?_⟩
    obtain ⟨h3, h4⟩ := takeWhile_all (digits_ne h2 (a := 46) (by simp [TextSpec.Digit]))
    rw [h3, h4]
    simp [h1, h2]
  | point ds fs hd hfs =>
    obtain ⟨h1, h2⟩ := uint_digits hd
    obtain ⟨h3, h4⟩ := takeWhile_not (m := fs) (digits_ne h2 (a := 46) (by simp [TextSpec.Digit]))
    refine ⟨?_, ?_, by simp, _, _, rfl, rfl, ?_⟩
    · intro c hc
      rcases List.mem_append.1 hc with hc | hc
      · exact digits_ne h2 (by simp [TextSpec.Digit]) c hc
      · rcases List.mem_cons.1 hc with rfl | hc
        · decide
        · exact digits_ne hfs (by simp [TextSpec.Digit]) c hc
    · intro r hr
      cases ds with
      | nil => exact absurd rfl h1
      | cons d ds =>
        simp only [List.cons_append, List.cons.injEq] at hr
        exact digits_no45 h2 ds (by rw [hr.1])
    · rw [h3, h4]
      refine ⟨by simp, by simp, by simp [h1], ?_⟩
      intro c hc
      rcases List.mem_append.1 hc with hc | hc
      · exact h2 c hc
      · exact hfs c hc

omit [Fate] in
theorem parseDecimal_sign {l : List Nat} (h : ∀ r, l ≠ 45 :: r) (neg : Bool) : parseDecimal (TextSpec.signText neg ++ l) = parseDecimalAbs neg l := by
  cases neg with
  | true => rfl
  | false =>
    simp only [TextSpec.signText, Bool.false_eq_true, if_false, List.nil_append]
    unfold parseDecimal
    split
    next r => exact absurd rfl (h _)
    next => rfl

omit [Fate] in
theorem parseDecimal_coef {co all : List Nat} {n : Nat} (hco : TextSpec.IsCoefficient co all n) (neg : Bool) :
    parseDecimal (TextSpec.signText neg ++ co) = .ok ⟨neg, TextSpec.decNum all, -(n : Int)⟩ := by
  obtain ⟨h1, h2, h2', int, frac, h3, h4, h5, h6, h7, h8⟩ := coef_parts hco
  rw [parseDecimal_sign h2]
  obtain ⟨h9, h10⟩ := takeWhile_all h1
  simp only [parseDecimalAbs, h9, h10, h3, h4]
  rw [← h5, if_pos ⟨h7, all_digit h8⟩, h6]
  simp only [Int.zero_sub, TextSpec.decNum, digitsVal]

omit [Fate] in
theorem parseDecimal_exp {co all : List Nat} {n : Nat} (hco : TextSpec.IsCoefficient co all n) {ex : List Nat} {i : Int} (hex : TextSpec.IsExponent ex i) (neg : Bool) :
    parseDecimal (TextSpec.signText neg ++ (co ++ 101 :: ex)) = .ok ⟨neg, TextSpec.decNum all, i - (n : Int)⟩ := by
  obtain ⟨h1, h2, h2', int, frac, h3, h4, h5, h6, h7, h8⟩ := coef_parts hco
  have h2'' : ∀ r, co ++ 101 :: ex ≠ 45 :: r := by
    intro r hr
    cases co with
    | nil => exact h2' rfl
    | cons d co =>
      simp only [List.cons_append, List.cons.injEq] at hr
      exact h2 co (by rw [hr.1])
  rw [parseDecimal_sign h2'']
  obtain ⟨h9, h10⟩ := takeWhile_not (m := ex) h1
  simp only [parseDecimalAbs, h9, h10, h3, h4]
  rw [← h5, if_pos ⟨h7, all_digit h8⟩, h6]
  cases hex with
  | none _ hne hds =>
    split
    · next h => cases h
    · next ds h =>
      simp only [List.cons.injEq] at h
      have := hds 43 (by rw [h.2]; simp)
      simp [TextSpec.Digit] at this
    · next a b h =>
      simp only [List.cons.injEq] at h
      rw [← h.2, parseInt_digits hne hds]
      rfl
  | plus ds hne hds =>
    simp only [ne_eq, hne, not_false_eq_true, all_digit hds, and_self, if_true]
    rfl
  | minus ds hne hds =>
    simp only [parseInt_neg hne hds]
    rfl

/-! ## Numbers as values -/

theorem at_intValue {t ds : List Nat} (hd : TextSpec.IsUInt ds) (hs : TextSpec.Spelled t ds) (neg : Bool) (hv : VEnd P g r) (h : Rest F P r es) :
    At F P false false (childOf f as) cm (TextSpec.signText neg ++ (t ++ (g ++ r)))
      (scalarEv f as P.outer.length .int (some (.int (if neg then -(TextSpec.decNum ds : Int) else TextSpec.decNum ds))) :: es) := by
  refine at_int hd hs neg fun h' hh => ?_
  have h1 := intH_end (F := F) (f := f) (as := as) (v := TextSpec.signText neg ++ ds) (ev := P.env) hh hv.head
  refine t_numEnd rfl h1.1 (h1.2.trans ?_) ⟨by simp [scalarEv], rfl⟩ hv h
  rw [parseInt_uint hd neg]
  rfl

theorem at_decimalValue {t ds fs : List Nat} (hd : TextSpec.IsUInt ds) (hfs : TextSpec.Digits fs) (hs : TextSpec.Spelled t (ds ++ 46 :: fs)) (neg : Bool) (hv : VEnd P g r) (h : Rest F P r es) :
    At F P false false (childOf f as) cm (TextSpec.signText neg ++ (t ++ (g ++ r)))
      (scalarEv f as P.outer.length .decimal (some (.decimal ⟨neg, TextSpec.decNum (ds ++ fs), -(fs.length : Int)⟩)) :: es) := by
  refine at_point hd hfs hs neg fun p hp => ?_
  refine t_numEnd (ty := .decimal) rfl rfl ?_ ⟨by simp [scalarEv], rfl⟩ hv h
  obtain ⟨h1, _⟩ := vends_facts _ hv.head
  have h95 : p ≠ 95 := by
    rcases hp with hp | rfl
    · exact (digit_not hp).2.1
    · decide
  have hval : NumKind.parse F .fractional (nctx f as .decimal (TextSpec.signText neg ++ (ds ++ 46 :: fs))).value =
      .ok (some (.decimal ⟨neg, TextSpec.decNum (ds ++ fs), -(fs.length : Int)⟩)) := by
    simp only [NumKind.parse, nctx, parseDecimal_coef (.point ds fs hd hfs) neg]
    rfl
  simp only [handle, onNumeric, h1, if_true, h95, NumKind.badEnd, Bool.false_eq_true, or_self, if_false, hval]
  rfl

omit [Fate] in
/-- The character that begins the exponent. -/
theorem coH_exp {h : H} {ty : IonType} (hh : CoH h ty) {c : Nat} (hc : isDecExp c = true ∨ isFloatExp c = true) {v : List Nat} {ev : Env} :
    isCS h = false ∧ handle F ev (nctx f as ty v) h { code := c } = .ok { ctx := (if isDecExp c then nctx f as .decimal (v ++ [101]) else nctx f as .float (v ++ [c])), res := .imm (if isDecExp c then .numeric .decimal c else .numeric .float c) } := by
  have key : ∀ c < 128, (isDecExp c = true ∨ isFloatExp c = true) → endsValue c = false ∧ c ≠ 46 ∧ isDigit c = false ∧ c ≠ 95 := by
    decide +kernel
  have hlt : c < 128 := by
    simp only [isDecExp, isFloatExp, Bool.or_eq_true, decide_eq_true_eq] at hc
    omega
  obtain ⟨h1, h2, h3, h4⟩ := key c hlt hc
  have htab : ∀ (dot : Bool) (ty : IonType), andGo (wholeTable dot c (nctx f as ty v)) = .ok { ctx := (if isDecExp c then nctx f as .decimal (v ++ [101]) else nctx f as .float (v ++ [c])), res := .imm (if isDecExp c then .numeric .decimal c else .numeric .float c) } := by
    intro dot ty
    simp only [wholeTable, h2, decide_false, Bool.and_false, Bool.false_eq_true, if_false]
    by_cases hd : isDecExp c = true
    · simp only [hd, if_true, mkNumeric, andGo, Ctx.setType, nctx, Ctx.push]
      by_cases ht : ty = .decimal <;> simp [ht, dec]
    · have hf : isFloatExp c = true := by simpa [hd] using hc
      simp only [hd, hf, if_true, if_false, mkNumeric, andGo, Ctx.setType, nctx, Ctx.push, Bool.false_eq_true]
      by_cases ht : ty = .float <;> simp [ht, dec]
  rcases hh with ⟨hh, rfl⟩ | ⟨p, hp, rfl, rfl⟩
  · obtain ⟨h5, h6⟩ := intH_table (F := F) (f := f) (as := as) (v := v) (ev := ev) hh (c := c) (.inr hc)
    exact ⟨h5, h6.trans (htab true _)⟩
  · refine ⟨rfl, ?_⟩
    have h95 : p ≠ 95 := by
      rcases hp with hp | rfl
      · exact (digit_not hp).2.1
      · decide
    simp only [handle, onNumeric, h1, h4, NumKind.charset, h3, Bool.false_eq_true, if_false, NumKind.transition, h95]
    exact htab false _

theorem at_decimalExp {t co all : List Nat} {n d : Nat} {ex : List Nat} {i : Int} (hco : TextSpec.IsCoefficient co all n) (hs : TextSpec.Spelled t co) (hd : d = 100 ∨ d = 68)
    (hex : TextSpec.IsExponent ex i) (neg : Bool) (hv : VEnd P g r) (h : Rest F P r es) :
    At F P false false (childOf f as) cm (TextSpec.signText neg ++ (t ++ d :: (ex ++ (g ++ r))))
      (scalarEv f as P.outer.length .decimal (some (.decimal ⟨neg, TextSpec.decNum all, i - n⟩)) :: es) := by
  refine at_coef hco hs neg fun h' ty hh => ?_
  have hdd : isDecExp d = true := by rcases hd with rfl | rfl <;> decide
  obtain ⟨h1, h2⟩ := coH_exp (F := F) (f := f) (as := as) (v := TextSpec.signText neg ++ co) (ev := P.env) hh (.inl hdd)
  simp only [hdd, if_true] at h2
  refine t_imm (b' := true) (x' := nctx f as .decimal (TextSpec.signText neg ++ co ++ [101])) (h' := .numeric .decimal d) rfl h1 h2 (fun _ => rfl) ?_
  refine t_exponent hex (.inl ⟨rfl, rfl⟩) ⟨fun _ => hdd, by simp⟩ hv h ?_
  have := parseDecimal_exp hco hex neg
  simp only [NumKind.parse]
  rw [List.append_assoc, List.append_assoc, List.singleton_append, this]
  rfl

theorem at_float {t co all : List Nat} {n e : Nat} {ex : List Nat} {i : Int} {bits : UInt64} (hco : TextSpec.IsCoefficient co all n) (hs : TextSpec.Spelled t co) (he : e = 101 ∨ e = 69)
    (hex : TextSpec.IsExponent ex i) (neg : Bool) (hF : F.parse (TextSpec.signText neg ++ co ++ e :: ex) = .ok bits) (hv : VEnd P g r) (h : Rest F P r es) :
    At F P false false (childOf f as) cm (TextSpec.signText neg ++ (t ++ e :: (ex ++ (g ++ r))))
      (scalarEv f as P.outer.length .float (some (.float bits)) :: es) := by
  refine at_coef hco hs neg fun h' ty hh => ?_
  have hee : isFloatExp e = true ∧ isDecExp e = false := by rcases he with rfl | rfl <;> decide
  obtain ⟨h1, h2⟩ := coH_exp (F := F) (f := f) (as := as) (v := TextSpec.signText neg ++ co) (ev := P.env) hh (.inr hee.1)
  simp only [hee.2, Bool.false_eq_true, if_false] at h2
  refine t_imm (b' := true) (x' := nctx f as .float (TextSpec.signText neg ++ co ++ [e])) (h' := .numeric .float e) rfl h1 h2 (fun _ => rfl) ?_
  refine t_exponent hex (.inr ⟨rfl, rfl⟩) ⟨by simp, fun _ => hee.1⟩ hv h ?_
  simp only [NumKind.parse]
  rw [List.append_assoc, List.singleton_append, hF]
  rfl

/-! ## Binary and hexadecimal integers -/

omit [Fate] in
theorem digitsIn_fold {base : Nat} {ds : List Nat} {n : Nat} (h : TextSpec.DigitsIn base ds n) : ds.foldl (fun a c => base * a + hexVal c) 0 = n := by
  induction h with
  | nil => rfl
  | snoc ds n c v _ hc _ ih => simp [List.foldl_append, ih, (hex_spec hc).2]

omit [Fate] in
theorem digitsIn_takes {base b : Nat} {ds : List Nat} {n : Nat} (h : TextSpec.DigitsIn base ds n) {k : NumKind}
    (hb : base = 2 ∧ k = .binary ∨ base = 16 ∧ k = .hex) : ∀ d ∈ ds, Takes k d := by
  have key : ∀ c < 128, (c = 48 ∨ c = 49 → Takes .binary c) ∧ (isHex c = true → Takes .hex c) := by
    unfold Takes
    decide +kernel
  have hlt : ∀ c v, TextSpec.HexDigit c v → c < 128 := by intro c v h; cases h <;> omega
  induction h with
  | nil => simp
  | snoc ds n c v _ hc hv ih =>
    intro d hd
    rcases List.mem_append.1 hd with hd | hd
    · exact ih d hd
    · simp only [List.mem_singleton] at hd
      subst hd
      have hk := key d (hlt _ _ hc)
      rcases hb with ⟨rfl, rfl⟩ | ⟨rfl, rfl⟩
      · refine hk.1 ?_
        cases hc <;> omega
      · exact hk.2 (hex_spec hc).1

/-- An integer in another base. -/
theorem at_radix {base b : Nat} {t ds : List Nat} {n : Nat} (hb : base = 2 ∧ (b = 98 ∨ b = 66) ∨ base = 16 ∧ (b = 120 ∨ b = 88)) (hne : ds ≠ [])
    (hd : TextSpec.DigitsIn base ds n) (hs : TextSpec.Spelled t ds) (neg : Bool) (hv : VEnd P g r) (h : Rest F P r es) :
    At F P false false (childOf f as) cm (TextSpec.signText neg ++ (48 :: b :: (t ++ (g ++ r))))
      (scalarEv f as P.outer.length .int (some (.int (if neg then -(n : Int) else n))) :: es) := by
  have hpre : T F P false (nctx f as .int (TextSpec.signText neg ++ [48])) .zeroStart false true (b :: (t ++ (g ++ r)))
      (scalarEv f as P.outer.length .int (some (.int (if neg then -(n : Int) else n))) :: es) := by
    obtain ⟨k, hk, hk'⟩ : ∃ k, (base = 2 ∧ k = .binary ∨ base = 16 ∧ k = .hex) ∧
        ∀ v, (v = [48] ∨ v = [45, 48]) → handle F P.env (nctx f as .int v) .zeroStart { code := b } = .ok { ctx := nctx f as .int (v ++ [b]), res := .imm (.numeric k b) } := by
      rcases hb with ⟨h1, rfl | rfl⟩ | ⟨h1, rfl | rfl⟩
      · exact ⟨.binary, .inl ⟨h1, rfl⟩, by rintro v (rfl | rfl) <;> rfl⟩
      · exact ⟨.binary, .inl ⟨h1, rfl⟩, by rintro v (rfl | rfl) <;> rfl⟩
      · exact ⟨.hex, .inr ⟨h1, rfl⟩, by rintro v (rfl | rfl) <;> rfl⟩
      · exact ⟨.hex, .inr ⟨h1, rfl⟩, by rintro v (rfl | rfl) <;> rfl⟩
    have htk := digitsIn_takes (b := b) hd hk
    refine t_imm (b' := true) rfl rfl (hk' (TextSpec.signText neg ++ [48]) (by cases neg <;> simp [TextSpec.signText])) (fun _ => rfl) (t_spelled rfl hs htk ?_)
    refine t_numEnd (ty := .int) rfl rfl ?_ ⟨by simp [scalarEv], rfl⟩ hv h
    obtain ⟨h1, _⟩ := vends_facts _ hv.head
    obtain ⟨_, _, h95, hbb⟩ := htk (ds.getLastD b) (by
      rw [List.getLastD_eq_getLast?, List.getLast?_eq_some_getLast hne, Option.getD_some]
      exact List.getLast_mem hne)
    have hbe : k.badEnd (ds.getLastD b) = false := by rcases hk with ⟨_, rfl⟩ | ⟨_, rfl⟩ <;> exact hbb
    have hval : k.parse F (nctx f as .int (TextSpec.signText neg ++ [48] ++ [b] ++ ds)).value = .ok (some (.int (if neg then -(n : Int) else n))) := by
      have hf := digitsIn_fold hd
      rcases hk with ⟨rfl, rfl⟩ | ⟨rfl, rfl⟩ <;> cases neg <;>
        simp [NumKind.parse, nctx, TextSpec.signText, parseRadix, hne, someVal, hf]
    simp only [handle, onNumeric, h1, if_true, h95, hbe, Bool.false_eq_true, or_self, if_false, hval]
    rfl
  cases neg with
  | false => exact at_value (x := nctx f as .int [48]) (h := .zeroStart) (q := false) (plainStart_of (.inr (by decide)) P) rfl rfl hpre
  | true =>
    refine at_value (x := nctx f as .int [45]) (h := .negStart) (q := false) (plainStart_of (.inl (by decide)) P) rfl rfl ?_
    exact t_imm (x' := nctx f as .int [45, 48]) (h' := .zeroStart) (b' := true) rfl rfl rfl (fun _ => rfl) hpre

/-! ## Strings -/

/-- The context while a string is read. -/
def sctx (f : Option SymbolToken) (as : List SymbolToken) (ty : IonType) (v : List Nat) : Ctx :=
  { dec f as with value := v, isText := true, quoted := true, ionType := some ty }

theorem t_string {bs : List Nat} {tx : Text} (hb : TextSpec.IsChars 34 false bs tx) (h : After F P r es) :
    ∀ {v : List Nat} {q b : Bool}, T F P false (sctx f as .string v) .shortString q b (bs ++ 34 :: r) (scalarEv f as P.outer.length .string (some (.str (v ++ tx))) :: es) := by
  induction hb with
  | nil =>
    intro v q b
    rw [List.append_nil]
    exact t_quoteEnd (x' := { sctx f as .string v with selfDelim := true }) (.inl rfl) rfl rfl rfl rfl rfl ⟨by simp [scalarEv], rfl⟩ h
  | cons cb rest c t hc _ ih =>
    intro v q b
    rw [List.append_assoc]
    have ih := @ih (v ++ [c]) false false
    rw [List.append_assoc, List.singleton_append] at ih
    refine t_char (x' := sctx f as .string (v ++ [c])) (h' := .shortString) rfl rfl hc (fun esc hesc => ?_) ih
    have h1 : ¬ (c = 34 ∧ ¬ esc = true) := by
      rintro ⟨h1, h2⟩
      exact (hesc (by simpa using h2)).1 h1
    have h2 : badQuoted false false { code := c, esc := esc } = false := by
      have := isChar_le hc
      cases esc with
      | true => simp [badQuoted]
      | false =>
        have := rawOk_not (hesc rfl).2.1 (by assumption)
        simpa [badQuoted] using this
    simp only [handle, onShort, if_neg h1, h2, Bool.false_eq_true, if_false]
    simp [Ctx.extend, sctx]
  | continued nl rest t hb hrest ih =>
    intro v q b
    obtain ⟨h1, h2⟩ := chars_rest (.inl rfl) hrest r
    rw [List.cons_append, List.append_assoc]
    refine t_continued (x' := sctx f as .string v) (h' := .shortString) rfl rfl (h2 nl hb) h1 (by simp) ?_ ih
    simp [handle, onShort, badQuoted, isNewline, Ctx.extend, sctx]

theorem at_string {bs : List Nat} {tx : Text} (hb : TextSpec.IsChars 34 false bs tx) (h : After F P r es) :
    At F P false false (childOf f as) cm (34 :: (bs ++ 34 :: r)) (scalarEv f as P.outer.length .string (some (.str tx)) :: es) := by
  refine at_value (x := sctx f as .string []) (h := .shortString) (q := true) (plainStart_of (.inl (by decide)) P) rfl rfl ?_
  have := t_string (f := f) (as := as) hb h (v := []) (q := true) (b := true)
  simpa using this

/-! ## Lobs -/

theorem at_lobStart (hr : T F P false (dec f as) (.lobStart 0) false false r es) : At F P false false (childOf f as) cm (123 :: 123 :: r) es := by
  refine at_value (x := dec f as) (h := .structOrLob) (q := false) (plainStart_of (.inl (by decide)) P) rfl rfl ?_
  exact t_imm (x' := dec f as) (h' := .lobStart 0) (b' := false) rfl rfl rfl (by simp) hr

theorem t_lobBlank {w : List Nat} (hw : ∀ c ∈ w, isWs c = true) (hr : T F P false (dec f as) (.lobStart 0) false false r es) :
    T F P false (dec f as) (.lobStart 0) false false (w ++ r) es := by
  induction w with
  | nil => exact hr
  | cons c w ih =>
    refine t_imm (x' := dec f as) (h' := .lobStart 0) (b' := false) rfl rfl ?_ (by simp) (ih fun d hd => hw d (by simp [hd]))
    have := hw c (by simp)
    simp [handle, onLobStart, this]

omit [Fate] in
theorem toBytes_toNat (bts : Bytes) : toBytes (bts.map UInt8.toNat) = bts := by
  induction bts with
  | nil => rfl
  | cons b bts ih => simp only [toBytes, List.map_cons] at ih ⊢; rw [ih, UInt8.ofNat_toNat]

theorem t_clobEnd {w : List Nat} (hw : ∀ c ∈ w, isWs c = true) {v : List Nat} {bts : Bytes} (hv : v = bts.map UInt8.toNat) (h : After F P r es) : ∀ {p : Nat}, p ≠ 125 →
    T F P false { sctx f as .clob v with quoted := false, selfDelim := true } (.clobEnd p) false false (w ++ 125 :: 125 :: r)
      (scalarEv f as P.outer.length .clob (some (.bytes bts)) :: es) := by
  induction w with
  | nil =>
    intro p hp
    refine t_imm (x' := { sctx f as .clob v with quoted := false, selfDelim := true }) (h' := .clobEnd 125) (b' := false) rfl rfl ?_ (by simp) ?_
    · simp [handle, onClobEnd, hp, isWs, isWsNotNl, isNewline]
    · refine t_endSelf (x' := { sctx f as .clob v with quoted := false, selfDelim := true }) rfl rfl ?_ rfl rfl ⟨by simp [scalarEv], rfl⟩ h
      have hall : v.all (· < 256) = true := by
        subst hv
        simp only [List.all_map, List.all_eq_true, Function.comp, decide_eq_true_eq]
        exact fun b _ => b.toNat_lt
      have hb : toBytes v = bts := by
        rw [hv, toBytes_toNat]
      simp [handle, onClobEnd, isWs, isWsNotNl, isNewline, lobEvent, parseLob, sctx, hall, hb, scalarEv, Ctx.event, dec, Loc.env]
  | cons c w ih =>
    intro p hp
    have hc := hw c (by simp)
    have hc2 : c ≠ 125 := by
      rintro rfl
      exact absurd hc (by decide)
    refine t_imm (x' := { sctx f as .clob v with quoted := false, selfDelim := true }) (h' := .clobEnd c) (b' := false) rfl rfl ?_ (by simp)
      (ih (fun d hd => hw d (by simp [hd])) hc2)
    simp [handle, onClobEnd, hp, hc]

theorem t_clobChars {bs : List Nat} {tx : Text} (hb : TextSpec.IsChars 34 true bs tx) :
    ∀ {v : List Nat} {q b : Bool}, T F P false { sctx f as .clob (v ++ tx) with quoted := false, selfDelim := true } (.clobEnd 34) false false r es →
      T F P false (sctx f as .clob v) .shortClob q b (bs ++ 34 :: r) es := by
  induction hb with
  | nil =>
    intro v q b hv
    rw [List.append_nil] at hv
    exact t_quoteImm (x' := { sctx f as .clob v with quoted := false, selfDelim := true }) (h' := .clobEnd 34) (b' := false) (.inl rfl) rfl rfl rfl (by simp)
      hv
  | cons cb rest c t hc _ ih =>
    intro v q b hv
    rw [List.append_assoc]
    refine t_char (x' := sctx f as .clob (v ++ [c])) (h' := .shortClob) rfl rfl hc (fun esc hesc => ?_) (ih (by simpa using hv))
    have h1 : ¬ (c = 34 ∧ ¬ esc = true) := by
      rintro ⟨h1, h2⟩
      exact (hesc (by simpa using h2)).1 h1
    have h2 : badQuoted false true { code := c, esc := esc } = false := by
      cases esc with
      | true => simp [badQuoted]
      | false =>
        have h3 := (hesc rfl).2.2 rfl
        have h4 := rawOk_not (hesc rfl).2.1 (by omega)
        have h5 : ¬ c > 0x7F := by omega
        have h6 : ¬ c > 0x10FFFF := by omega
        simp only [h6, decide_false, Bool.or_false] at h4
        simp [badQuoted, h5]
        simpa using h4
    simp only [handle, onShort, if_neg h1, h2, Bool.false_eq_true, if_false]
    simp [Ctx.extend, sctx]
  | continued nl rest t hb hrest ih =>
    intro v q b hv
    obtain ⟨h1, h2⟩ := chars_rest (.inl rfl) hrest r
    rw [List.cons_append, List.append_assoc]
    refine t_continued (x' := sctx f as .clob v) (h' := .shortClob) rfl rfl (h2 nl hb) h1 (by simp) ?_ (ih hv)
    simp [handle, onShort, badQuoted, isNewline, Ctx.extend, sctx]

theorem t_clob {bs : List Nat} {tx : Text} (hb : TextSpec.IsChars 34 true bs tx) (h : After F P r es) {w : List Nat} (hw : ∀ c ∈ w, isWs c = true) {bts : Bytes}
    {v : List Nat} {q b : Bool} (hv : v ++ tx = bts.map UInt8.toNat) : T F P false (sctx f as .clob v) .shortClob q b (bs ++ 34 :: (w ++ 125 :: 125 :: r))
      (scalarEv f as P.outer.length .clob (some (.bytes bts)) :: es) :=
  t_clobChars hb (t_clobEnd hw hv h (by decide))

theorem at_clob {w1 bs w2 : List Nat} {tx : Text} {bts : Bytes} (hw1 : ∀ c ∈ w1, isWs c = true) (hb : TextSpec.IsChars 34 true bs tx) (hw2 : ∀ c ∈ w2, isWs c = true)
    (ht : tx = bts.map UInt8.toNat) (h : After F P r es) :
    At F P false false (childOf f as) cm (123 :: 123 :: (w1 ++ 34 :: (bs ++ 34 :: (w2 ++ 125 :: 125 :: r)))) (scalarEv f as P.outer.length .clob (some (.bytes bts)) :: es) := by
  refine at_lobStart (t_lobBlank hw1 ?_)
  refine t_imm (x' := sctx f as .clob []) (h' := .shortClob) (b' := false) rfl rfl rfl (by simp) ?_
  exact t_clob hb h hw2 (by simpa using ht)

/-- The context while a blob is read. -/
def bctx (f : Option SymbolToken) (as : List SymbolToken) (v : List Nat) : Ctx := { dec f as with value := v }

omit [Fate] in
theorem isB64_not {c : Nat} (hb : isB64 c = true) : isWs c = false ∧ c ≠ 125 ∧ c ≠ 61 ∧ c ≠ 34 ∧ c ≠ 39 := by
  have key : ∀ c < 128, isB64 c = true → isWs c = false ∧ c ≠ 125 ∧ c ≠ 61 ∧ c ≠ 34 ∧ c ≠ 39 := by decide +kernel
  have hlt : c < 128 := by
    simp only [isB64, isLetter, isDigit, Bool.or_eq_true, Bool.and_eq_true, decide_eq_true_eq] at hb
    omega
  exact key c hlt hb

omit [Fate] in
theorem isWs_space {c : Nat} (h : TextSpec.IsSpace c) : isWs c = true := by
  simp only [TextSpec.IsSpace] at h
  simp only [isWs, isWsNotNl, isNewline, Bool.or_eq_true, decide_eq_true_eq]
  omega

/-- The digits and the padding of a blob, with whitespace among them. -/
theorem t_blobSpaced {t u : List Nat} (hs : TextSpec.Spaced t u) : ∀ {ds : List Nat} {m : Nat} {v : List Nat} {p n k : Nat}, u = ds ++ List.replicate m 61 →
    (∀ c ∈ ds, isB64 c = true) → p ≠ 125 → (ds ≠ [] → p ≠ 61) →
    (∀ p, p ≠ 125 → T F P false (bctx f as (v ++ u)) (.blobEnd p (n + ds.length) (k + m)) false false r es) →
    T F P false (bctx f as v) (.blobEnd p n k) false false (t ++ r) es := by
  induction hs with
  | nil =>
    intro ds m v p n k hu _ h1 h2 hr
    have h3 : ds = [] ∧ m = 0 := by simpa using hu.symm
    obtain ⟨rfl, rfl⟩ := h3
    simpa using hr p h1
  | space c t u hc _ ih =>
    intro ds m v p n k hu hd h1 h2 hr
    have hw := isWs_space hc
    have h3 : c ≠ 125 ∧ c ≠ 61 := by simp only [TextSpec.IsSpace] at hc; omega
    refine t_imm (x' := bctx f as v) (h' := .blobEnd c n k) (b' := false) rfl rfl ?_ (by simp) (ih hu hd h3.1 (fun _ => h3.2) hr)
    simp [handle, onBlobEnd, hw, h1]
  | cons c t u _ ih =>
    intro ds m v p n k hu hd h1 h2 hr
    cases ds with
    | nil =>
      cases m with
      | zero => simp at hu
      | succ m =>
        simp only [List.nil_append, List.replicate_succ, List.cons.injEq] at hu
        obtain ⟨rfl, rfl⟩ := hu
        refine t_imm (x' := bctx f as (v ++ [61])) (h' := .blobEnd 61 n (k + 1)) (b' := false) rfl rfl ?_ (by simp) (ih (ds := []) rfl (by simp) (by decide) (by simp) fun p hp => ?_)
        · have h2 : isWs 61 = false ∧ isB64 61 = false := by decide
          simp [handle, onBlobEnd, blobAction, h1, h2.1, h2.2, Ctx.push, bctx]
        · have := hr p hp
          rw [List.append_assoc, List.singleton_append]
          simpa [Nat.add_assoc, Nat.add_comm 1] using this
    | cons d ds =>
      simp only [List.cons_append, List.cons.injEq] at hu
      obtain ⟨rfl, rfl⟩ := hu
      have hb := hd c (by simp)
      obtain ⟨h3, h4, h5, _⟩ := isB64_not hb
      refine t_imm (x' := bctx f as (v ++ [c])) (h' := .blobEnd c (n + 1) k) (b' := false) rfl rfl ?_ (by simp) (ih rfl (fun e he => hd e (by simp [he])) h4 (fun _ => h5) fun p hp => ?_)
      · simp [handle, onBlobEnd, h3, h4, blobAction, hb, h1, h2 (by simp), Ctx.push, bctx]
      · have := hr p hp
        rw [List.append_assoc, List.singleton_append]
        simpa [Nat.add_assoc, Nat.add_comm 1] using this

theorem t_blobClose {v : List Nat} {n k : Nat} {bts : Bytes} (hn : k ≤ 3 ∧ (n + k) % 4 = 0) (hv : b64decode v = .ok (bts.map UInt8.toNat)) (h : After F P r es) :
    T F P false (bctx f as v) (.blobEnd 125 n k) false false (125 :: r) (scalarEv f as P.outer.length .blob (some (.bytes bts)) :: es) := by
  refine t_endSelf (x' := { bctx f as v with selfDelim := true }) rfl rfl ?_ rfl rfl ⟨by simp [scalarEv], rfl⟩ h
  have h1 : ¬ (k > 3 ∨ (n + k) % 4 ≠ 0) := by omega
  have hb := toBytes_toNat bts
  have h2 : isWs 125 = false := by decide
  simp only [handle, onBlobEnd, h2, Bool.false_eq_true, if_false, if_true, if_neg h1, lobEvent, parseLob, bctx, reduceCtorEq, hv, hb]
  rfl

theorem at_blobText {t ds : List Nat} {m : Nat} {bts : Bytes} (hs : TextSpec.Spaced t (ds ++ List.replicate m 61)) (hd : ∀ c ∈ ds, isB64 c = true) (hm : m ≤ 3 ∧ (ds.length + m) % 4 = 0)
    (hv : b64decode (ds ++ List.replicate m 61) = .ok (bts.map UInt8.toNat)) (h : After F P r es) :
    At F P false false (childOf f as) cm (123 :: 123 :: (t ++ 125 :: 125 :: r)) (scalarEv f as P.outer.length .blob (some (.bytes bts)) :: es) := by
  refine at_lobStart ?_
  generalize hu : ds ++ List.replicate m 61 = u at hs
  induction hs with
  | nil =>
    have h3 : ds = [] ∧ m = 0 := by simpa using hu
    obtain ⟨rfl, rfl⟩ := h3
    exact t_imm (x' := bctx f as []) (h' := .blobEnd 125 0 0) (b' := false) rfl rfl rfl (by simp) (t_blobClose (by simp) hv h)
  | space c t u hc _ ih =>
    refine t_imm (x' := dec f as) (h' := .lobStart 0) (b' := false) rfl rfl ?_ (by simp) (ih hu)
    simp [handle, onLobStart, isWs_space hc]
  | cons d t u hs _ =>
    cases ds with
    | nil =>
      have h0 : m = 0 := by simp at hm; omega
      subst h0
      simp at hu
    | cons d' ds =>
      simp only [List.cons_append, List.cons.injEq] at hu
      obtain ⟨rfl, rfl⟩ := hu
      have hb := hd d' (by simp)
      obtain ⟨h3, h4, h5, h6, h7⟩ := isB64_not hb
      rw [List.cons_append]
      refine t_imm (x' := bctx f as [d']) (h' := .blobEnd d' 1 0) (b' := false) rfl rfl ?_ (by simp) (t_blobSpaced hs rfl (fun e he => hd e (by simp [he])) h4 (fun _ => h5) fun p h10 => ?_)
      · simp [handle, onLobStart, h3, h4, h5, h6, h7, mkBlobEnd, blobAction, hb, Ctx.push, bctx, dec, andGo]
      · refine t_imm (x' := bctx f as ([d'] ++ (ds ++ List.replicate m 61))) (h' := .blobEnd 125 (1 + ds.length) (0 + m)) (b' := false) rfl rfl ?_ (by simp) (t_blobClose ?_ ?_ h)
        · have h2 : isWs 125 = false := by decide
          simp [handle, onBlobEnd, h10, h2]
        · simp at hm; omega
        · simpa using hv

/-! ## Strings as field names -/

/-- The context while a string that is a field name is read. -/
def fctx (f : Option SymbolToken) (as : List SymbolToken) (v : List Nat) : Ctx := { dec f as with quoted := true, pending := some (.text v) }

theorem t_fieldString {bs : List Nat} {tx : Text} (hb : TextSpec.IsChars 34 false bs tx) (hf : Follow P g r) :
    ∀ {v : List Nat} {q b : Bool}, SymR F P true f as (.text (v ++ tx)) r es → T F P true (fctx f as v) .shortField q b (bs ++ 34 :: (g ++ r)) es := by
  induction hb with
  | nil =>
    intro v q b hk
    rw [List.append_nil] at hk
    have hp : Pend f as (.text v) ((({ (fctx f as v).setQuoted false with selfDelim := true } : Ctx)).setType none) := by
      simp only [Ctx.setPending, Ctx.setQuoted, Ctx.setType, fctx, dec]
      constructor <;> rfl
    refine t_selfQ (.inl rfl) (x' := { (fctx f as v).setQuoted false with selfDelim := true }) rfl rfl ?_ hp rfl rfl rfl (pat_follow hf.triv hf.start hk)
    simp [handle, onShort]
  | cons cb rest c t hc _ ih =>
    intro v q b hk
    rw [List.append_assoc]
    refine t_char (x' := fctx f as (v ++ [c])) (h' := .shortField) rfl rfl hc (fun esc hesc => ?_) (ih (by simpa using hk))
    have h1 : ¬ (c = 34 ∧ ¬ esc = true) := by
      rintro ⟨h1, h2⟩
      exact (hesc (by simpa using h2)).1 h1
    have h2 : badQuoted false false { code := c, esc := esc } = false := by
      have := isChar_le hc
      cases esc with
      | true => simp [badQuoted]
      | false =>
        have := rawOk_not (hesc rfl).2.1 (by assumption)
        simpa [badQuoted] using this
    simp only [handle, onShort, if_neg h1, h2, Bool.false_eq_true, if_false]
    simp [Ctx.extend, fctx]
  | continued nl rest t hb hrest ih =>
    intro v q b hk
    obtain ⟨h1, h2⟩ := chars_rest (.inl rfl) hrest (g ++ r)
    rw [List.cons_append, List.append_assoc]
    refine t_continued (x' := fctx f as v) (h' := .shortField) rfl rfl (h2 nl hb) h1 (by simp) ?_ (ih hk)
    simp [handle, onShort, badQuoted, isNewline, Ctx.extend, fctx]

theorem at_fieldString {bs : List Nat} {tx : Text} (hb : TextSpec.IsChars 34 false bs tx) (hf : Follow P g r) (hk : SymR F P true none [] (.text tx) r es) :
    At F P true false none cm (34 :: (bs ++ 34 :: (g ++ r))) es := by
  refine at_start (f := none) (as := []) (fld := true) (x := fctx none [] []) (h := .shortField) (plainStart_of (.inl (by decide)) P) rfl ?_
  exact t_fieldString hb hf (by simpa using hk)
end

end Ion.TextReader
