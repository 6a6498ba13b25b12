import Verif.TextTimestamps
set_option linter.unusedSimpArgs false
/-!
# Long strings, as the text reader reads them

`'''…'''`, in one or more pieces, as a value, a field name or within a clob.
-/
namespace Ion.TextReader
open Ion
variable [Fate]

/-- The context while a long string is read; `v`: the text so far. -/
structure LCtx (fld clob : Bool) (f : Option SymbolToken) (as : List SymbolToken) (v : List Nat) (x : Ctx) : Prop where
  fieldName : x.fieldName = f
  annotations : x.annotations = as
  composite : x.composite = false
  ionType : x.ionType = some (if clob then .clob else if fld then .symbol else .string)
  field : fld = true → x.value = [] ∧ x.isText = false ∧ x.pending = some (.text v)
  value : fld = false → x.value = v

section
variable {F : FloatText} {P : Loc} {fld clob : Bool} {x x' : Ctx} {h h' : H} {q b b' : Bool} {r g : List Nat} {es : List IonEvent} {cm : Bool} {c : Nat}
  {f : Option SymbolToken} {as : List SymbolToken} {v : List Nat}

omit [Fate] in
theorem LCtx.extend (hx : LCtx fld clob f as v x) (l : List Nat) : LCtx fld clob f as (v ++ l) (x.extend fld l) := by
  obtain ⟨h1, h2, h3, h4, h5, h6⟩ := hx
  cases fld with
  | true =>
    obtain ⟨h7, h8, h9⟩ := h5 rfl
    refine ⟨h1, h2, h3, h4, fun _ => ⟨h7, h8, ?_⟩, by simp⟩
    simp [Ctx.extend, h9]
  | false =>
    refine ⟨h1, h2, h3, h4, by simp, fun _ => ?_⟩
    simp [Ctx.extend, h6 rfl]

omit [Fate] in
theorem LCtx.clob_iff (hx : LCtx fld clob f as v x) (hfc : fld = true → clob = false) : decide (x.ionType = some .clob) = clob := by
  rw [hx.ionType]
  cases clob with
  | true => rfl
  | false => cases fld <;> rfl

/-- A line break that is not escaped. -/
theorem run_break {clob : Bool} {nl : List Nat} (hb : TextSpec.IsBreak nl r) (hr : ∀ r', r = EOF :: r' → False) (hne : r ≠ []) {s : St} {k : Ch → Act} {l : Option Nat}
    (h : ∀ l, Run F l (k { code := 10 }) r es) : Run F l (codePoint clob s k) (nl ++ r) es := by
  have h10 : isLowSurrogate 10 = false ∧ isHighSurrogate 10 = false := by decide
  have h13 : isLowSurrogate 13 = false ∧ isHighSurrogate 13 = false := by decide
  simp only [codePoint]
  rcases hb with rfl | rfl | ⟨rfl, hb⟩
  · refine run_read ?_
    simp only [h10.1, h10.2, show (10 : Nat) ≠ 92 from by decide, newline, show (10 : Nat) ≠ 13 from by decide,
      Bool.false_eq_true, if_false]
    exact h _
  · refine run_read ?_
    simp only [h13.1, h13.2, show (13 : Nat) ≠ 92 from by decide, newline, Bool.false_eq_true, if_false, if_true]
    refine run_read ?_
    simp only [if_true]
    exact h _
  · refine run_read ?_
    simp only [h13.1, h13.2, show (13 : Nat) ≠ 92 from by decide, newline, Bool.false_eq_true, if_false, if_true]
    cases r with
    | nil => exact absurd rfl hne
    | cons c r =>
      have h1 : c ≠ 10 := by rintro rfl; exact hb r rfl
      have h2 : c ≠ EOF := by rintro rfl; exact hr r rfl
      show Run F _ _ (c :: r) es
      refine run_read ?_
      simp only [h1, h2, if_false]
      exact run_unread (h _)

theorem t_break {nl : List Nat} (hq : (x.quoted || q) = true) (hcs : isCS h = false) (hb : TextSpec.IsBreak nl r) (he : ∀ r', r = EOF :: r' → False) (hne : r ≠ [])
    (hh : handle F P.env x h { code := 10 } = .ok { ctx := x', res := .imm h' })
    (hr : T F P fld x' h' false false r es) : T F P fld x h q b (nl ++ r) es := by
  intro cm cf _
  refine events_go ?_
  simp only [next]
  rw [onToken_code hq hcs]
  refine run_break hb he hne fun l => ?_
  have he : ∀ pc, St.env ⟨P.outer, P.ty, fld, false, cm, cf, some x, pc⟩ = P.env := fun _ => rfl
  simp only [onChar, Option.getD_some, he, hh, onRes, Option.map_some]
  exact run_go (hr _ _ (by simp))

omit [Fate] in
/-- What follows within triple quotes. -/
theorem long_rest {bs : List Nat} {tx : Text} (hb : TextSpec.IsLongChars clob bs tx) (m : List Nat) :
    (∀ r', bs ++ 39 :: m = EOF :: r' → False) ∧ (∀ nl, TextSpec.IsBreak nl bs → TextSpec.IsBreak nl (bs ++ 39 :: m)) := by
  constructor
  · intro r' hc
    have hrep : ∀ (n : Nat) (l : List Nat), List.replicate n 39 ++ l = EOF :: r' → l = EOF :: r' := by
      intro n l h
      cases n with
      | zero => exact h
      | succ n =>
        simp only [List.replicate_succ, List.cons_append, List.cons.injEq] at h
        exact absurd h.1 (by decide)
    cases hb with
    | nil =>
      simp only [List.nil_append, List.cons.injEq] at hc
      exact absurd hc.1 (by decide)
    | char n cb rest v t _ hv _ =>
      rw [List.append_assoc] at hc
      have hc := hrep _ _ hc
      cases hv with
      | plain _ h1 h2 =>
        simp only [List.cons_append, List.nil_append, List.cons.injEq] at hc
        have := h2.1
        have := hc.1
        simp only [EOF] at this
        omega
      | escape e _ _ | hex2 ds _ _ | hex4 ds _ _ _ _ | hex8 ds _ _ _ _ | pair hs ls hh ll _ _ _ _ _ _ _ =>
        simp only [List.cons_append, List.nil_append, List.cons.injEq] at hc
        exact absurd hc.1 (by decide)
    | newline n nl rest t _ hb _ =>
      rw [List.append_assoc] at hc
      have hc := hrep _ _ hc
      rcases hb with rfl | rfl | ⟨rfl, _⟩ <;>
      · simp only [List.cons_append, List.nil_append, List.cons.injEq] at hc
        exact absurd hc.1 (by decide)
    | continued n nl rest t _ hb _ =>
      rw [List.append_assoc] at hc
      have hc := hrep _ _ hc
      simp only [List.cons_append, List.nil_append, List.cons.injEq] at hc
      exact absurd hc.1 (by decide)
  · intro nl h
    rcases h with h | h | ⟨h, h'⟩
    · exact .inl h
    · exact .inr (.inl h)
    · refine .inr (.inr ⟨h, fun r hr => ?_⟩)
      cases bs with
      | nil =>
        simp only [List.nil_append, List.cons.injEq] at hr
        exact absurd hr.1 (by decide)
      | cons c bs =>
        simp only [List.cons_append, List.cons.injEq] at hr
        exact h' bs (by rw [hr.1])

omit [Fate] in
theorem LCtx.selfDelim (hx : LCtx fld clob f as v x) (first : Bool) :
    LCtx fld clob f as v (if first then x else { x with selfDelim := false }) := by
  cases first with
  | true => exact hx
  | false => exact ⟨hx.1, hx.2, hx.3, hx.4, hx.5, hx.6⟩

/-- Quotes within the text. -/
theorem t_longData {n : Nat} : ∀ {m : Nat} {x : Ctx} {first b : Bool}, m + n ≤ 2 → LCtx fld clob f as v x → x.quoted = true →
    (∀ x first b, LCtx fld clob f as v x → x.quoted = true → T F P fld x (.long fld clob (m + n) true first) false b r es) →
    T F P fld x (.long fld clob m true first) false b (List.replicate n 39 ++ r) es := by
  induction n with
  | zero => intro m x first b _ hx hq hr; exact hr x first b hx hq
  | succ n ih =>
    intro m x first b hm hx hq hr
    refine t_quoteImm (x' := if first then x else { x with selfDelim := false }) (h' := .long fld clob (m + 1) true false) (b' := false) (.inr rfl) (by simp [hq]) rfl ?_ (by simp) ?_
    · have : m ≠ 2 := by omega
      simp [handle, onLong, this]
    · refine ih (by omega) (hx.selfDelim first) (by cases first <;> exact hq) fun x first b hx hq => ?_
      have := hr x first b hx hq
      rwa [show m + 1 + n = m + (n + 1) by omega]

omit [Fate] in
theorem long_char_ok {esc : Bool} (hle : c ≤ 0x10FFFF) (h : esc = false → c ≠ 39 ∧ rawOk c ∧ (clob = true → c ≤ 0x7F)) :
    ¬ (c = 39 ∧ ¬ esc = true) ∧ badQuoted true clob { code := c, esc := esc } = false := by
  constructor
  · rintro ⟨h1, h2⟩
    exact (h (by simpa using h2)).1 h1
  · cases esc with
    | true => simp [badQuoted]
    | false =>
      obtain ⟨h1, h2, h3⟩ := h rfl
      by_cases hlt : c < 0x20
      · have : isWs c = true := by
          simp only [rawOk] at h2
          simp only [isWs, isWsNotNl, isNewline, Bool.or_eq_true, decide_eq_true_eq]; omega
        simp [badQuoted, this]
      · cases clob with
        | true =>
          have := h3 rfl
          have : ¬ c > 0x7F := by omega
          simp [badQuoted, hlt, this]
        | false =>
          have : ¬ c > 0x10FFFF := by omega
          simp [badQuoted, hlt, this]

/-- The text within triple quotes. -/
theorem t_longChars {bs : List Nat} {tx : Text} (hfc : fld = true → clob = false) (hb : TextSpec.IsLongChars clob bs tx) :
    ∀ {v : List Nat} {x : Ctx} {first b : Bool}, LCtx fld clob f as v x → x.quoted = true →
    (∀ x, LCtx fld clob f as (v ++ tx) x → x.quoted = false → T F P fld x (.long fld clob 0 false false) false (!clob) r es) →
    T F P fld x (.long fld clob 0 true first) false b (bs ++ (TextSpec.quotes3 ++ r)) es := by
  induction hb with
  | nil =>
    intro v x first b hx hq hr
    rw [List.append_nil] at hr
    refine t_longData (m := 0) (n := 2) (by omega) hx hq fun x first b hx hq => ?_
    refine t_quoteImm (x' := (if first then x else { x with selfDelim := false }).setQuoted false) (h' := .long fld clob 0 false false) (b' := !clob) (.inr rfl) (by simp [hq]) rfl ?_ ?_
      (hr _ ?_ rfl)
    · simp [handle, onLong]
    · intro hc
      have := (hx.selfDelim first).ionType
      simp only [Ctx.setQuoted, this]
      cases clob with
      | true => cases hc
      | false => cases fld <;> rfl
    · have := hx.selfDelim first
      exact ⟨this.1, this.2, this.3, this.4, this.5, this.6⟩
  | char n cb rest c t hn hc hrest ih =>
    intro v x first b hx hq hr
    simp only [List.append_assoc]
    refine t_longData (m := 0) (by omega) hx hq fun x first b hx hq => ?_
    rw [Nat.zero_add]
    have hx' := (hx.selfDelim first).extend (List.replicate n 39 ++ [c])
    refine t_char (x' := (if first then x else { x with selfDelim := false }).extend fld (List.replicate n 39 ++ [c])) (h' := .long fld clob 0 true false) (by simp [hq]) rfl
      (by rw [hx.clob_iff hfc]; exact hc) (fun esc hesc => ?_) (ih hx' ?_ (by simpa using hr))
    · have hcl : clob = true → x.ionType = some .clob := by intro h; rw [hx.ionType, h]; rfl
      obtain ⟨h1, h2⟩ := long_char_ok (clob := clob) (isChar_le hc) (fun he => by
        have := hesc he
        exact ⟨this.1, this.2.1, fun hc => this.2.2 (hcl hc)⟩)
      simp only [handle, onLong, if_neg h1, if_true, h2, Bool.false_eq_true, if_false, and_false]
    · cases first <;> cases fld <;> exact hq
  | newline n nl rest t hn hnl hrest ih =>
    intro v x first b hx hq hr
    simp only [List.append_assoc]
    refine t_longData (m := 0) (by omega) hx hq fun x first b hx hq => ?_
    rw [Nat.zero_add]
    have hx' := (hx.selfDelim first).extend (List.replicate n 39 ++ [10])
    obtain ⟨h1, h2⟩ := long_rest hrest (39 :: 39 :: r)
    refine t_break (x' := (if first then x else { x with selfDelim := false }).extend fld (List.replicate n 39 ++ [10])) (h' := .long fld clob 0 true false) (by simp [hq]) rfl
      (h2 nl hnl) h1 (by simp [TextSpec.quotes3]) ?_ (ih hx' ?_ (by simpa using hr))
    · have h3 : badQuoted true clob { code := 10 } = false := by simp [badQuoted, isWs, isNewline]
      simp only [handle, onLong, h3, show ¬ (10 : Nat) = 39 from by decide, false_and, if_false, if_true, Bool.false_eq_true, and_false]
    · cases first <;> cases fld <;> exact hq
  | continued n nl rest t hn hnl hrest ih =>
    intro v x first b hx hq hr
    simp only [List.append_assoc, List.cons_append]
    refine t_longData (m := 0) (by omega) hx hq fun x first b hx hq => ?_
    rw [Nat.zero_add]
    have hx' := (hx.selfDelim first).extend (List.replicate n 39 ++ [])
    obtain ⟨h1, h2⟩ := long_rest hrest (39 :: 39 :: r)
    refine t_continued (x' := (if first then x else { x with selfDelim := false }).extend fld (List.replicate n 39 ++ [])) (h' := .long fld clob 0 true false) (by simp [hq]) rfl
      (h2 nl hnl) h1 (by simp [TextSpec.quotes3]) ?_ (ih hx' ?_ (by simpa using hr))
    · have h3 : badQuoted true clob { code := 10, esc := true, nl := true } = false := by simp [badQuoted, isWs, isNewline]
      simp only [handle, onLong, h3, show ¬ (10 : Nat) = 39 from by decide, show isNewline 10 = true from rfl, false_and, if_false, if_true, Bool.false_eq_true, and_self]
    · cases first <;> cases fld <;> exact hq

/-- Whitespace and comments after a piece. -/
theorem t_longGap (hg : TextSpec.IsTrivia g) (hcl : clob = true → TextSpec.IsBlank g)
    (hr : ∀ x, LCtx fld clob f as v x → x.quoted = false → T F P fld x (.long fld clob 0 false false) false (!clob) r es) :
    ∀ {x : Ctx}, LCtx fld clob f as v x → x.quoted = false → T F P fld x (.long fld clob 0 false false) false (!clob) (g ++ r) es := by
  induction hg with
  | nil => intro x hx hq; exact hr x hx hq
  | space c rest hc _ ih =>
    intro x hx hq
    have hw := isWs_of hc
    have h39 : c ≠ 39 := by simp only [TextSpec.IsSpace] at hc; omega
    refine t_imm (x' := { x with selfDelim := false }) (h' := .long fld clob 0 false false) (b' := !clob) hq rfl ?_ ?_
      (ih (fun h d hd => hcl h d (by simp [hd])) (hx.selfDelim false) hq)
    · simp only [handle, onLong, h39, false_and, if_false, Bool.false_eq_true, Nat.lt_irrefl, hw, if_true]
    · intro hc
      simp only [hx.ionType]
      cases clob with
      | true => cases hc
      | false => cases fld <;> rfl
  | comment cmt rest hc _ ih =>
    intro x hx hq
    obtain ⟨m, hm⟩ := comment_head hc
    have hcf : clob = false := by
      cases clob with
      | false => rfl
      | true =>
        have := hcl rfl 47 (by rw [hm]; simp)
        simp [TextSpec.IsSpace] at this
    subst hcf
    have hend : ∀ lc, CommentEnd F P.outer P.ty fld false { x with selfDelim := false } (some (.long fld false 0 false false)) lc (rest ++ r) es := by
      intro lc l cm1 cf1 ch1 pc last h5 hlast
      simp only [afterComment, onRes]
      have hx' : LCtx fld false f as v { x with selfDelim := true, lineComment := lc } := ⟨hx.1, hx.2, hx.3, hx.4, hx.5, hx.6⟩
      refine run_go (ih (by simp) hx' hq _ _ fun _ h6 h7 => ?_)
      refine flushable_of ?_ h6 h7
      simp only [hx.ionType]
      cases fld <;> rfl
    intro cm cf _
    rw [List.append_assoc]
    have hsplit : cmt ++ (rest ++ r) = 47 :: (cmt.tail ++ (rest ++ r)) := by rw [hm]; rfl
    rw [hsplit]
    refine events_token hq rfl ?_
    have he : St.env ⟨P.outer, P.ty, fld, false, cm, cf, some x, .token (.long fld false 0 false false) false⟩ = P.env := rfl
    simp only [onChar, Option.getD_some, he]
    by_cases hs : P.env.inSexp = true
    · have : ∃ e, handle F P.env x (.long fld false 0 false false) { code := 47 } =
          .ok { ctx := { x with selfDelim := false }, res := .imm (.sexpSlash (some (.long fld false 0 false false)) (some e)) } := by
        refine ⟨({ x with selfDelim := false } : Ctx).event P.env.depth x.ionType (.ok (some (.str x.value))), ?_⟩
        simp only [handle, onLong, show ¬ (47 : Nat) = 39 from by decide, false_and, if_false, Bool.false_eq_true, Nat.lt_irrefl, show isWs 47 = false from rfl, longAfter, hs, if_true]
      obtain ⟨e, this⟩ := this
      simp only [this, onRes, Option.map_some]
      exact run_go (events_slash (x := { x with selfDelim := false }) hc _ _ hq hend)
    · have : handle F P.env x (.long fld false 0 false false) { code := 47 } =
          .ok { ctx := { x with selfDelim := false }, res := .imm (.comment (some (.long fld false 0 false false))) } := by
        simp only [handle, onLong, show ¬ (47 : Nat) = 39 from by decide, false_and, if_false, Bool.false_eq_true, Nat.lt_irrefl, show isWs 47 = false from rfl, longAfter, hs, if_true]
      simp only [this, onRes, Option.map_some]
      exact run_go (events_comment (x := { x with selfDelim := false }) hc _ hq hend)

/-- Three quotes after a piece. -/
theorem t_longMore {x : Ctx} (hx : LCtx fld clob f as v x) (hq : x.quoted = false)
    (hr : ∀ x, LCtx fld clob f as v x → x.quoted = true → T F P fld x (.long fld clob 0 true false) false false r es) :
    T F P fld x (.long fld clob 0 false false) false b (TextSpec.quotes3 ++ r) es := by
  have hs := hx.selfDelim false
  refine t_imm (x' := { x with selfDelim := false }) (h' := .long fld clob 1 false false) (b' := false) hq rfl (by simp [handle, onLong]) (by simp) ?_
  refine t_imm (x' := { x with selfDelim := false }) (h' := .long fld clob 2 false false) (b' := false) hq rfl (by simp [handle, onLong]) (by simp) ?_
  refine t_imm (x' := ({ x with selfDelim := false } : Ctx).setQuoted true) (h' := .long fld clob 0 true false) (b' := false) hq rfl (by simp [handle, onLong]) (by simp) (hr _ ?_ rfl)
  exact ⟨hx.1, hx.2, hx.3, hx.4, hx.5, hx.6⟩

/-- A long string after its first three quotes. -/
theorem t_long {s : List Nat} {tx : Text} (hfc : fld = true → clob = false) (hs : TextSpec.IsLong clob s tx) :
    ∀ {v : List Nat} {x : Ctx} {first b : Bool}, LCtx fld clob f as v x → x.quoted = true →
    (∀ x, LCtx fld clob f as (v ++ tx) x → x.quoted = false → T F P fld x (.long fld clob 0 false false) false (!clob) r es) →
    ∃ s', s = TextSpec.quotes3 ++ s' ∧ T F P fld x (.long fld clob 0 true first) false b (s' ++ r) es := by
  induction hs with
  | one bs t hb =>
    intro v x first b hx hq hr
    refine ⟨_, rfl, ?_⟩
    rw [List.append_assoc]
    exact t_longChars hfc hb hx hq hr
  | more bs g rest t u hb hg hcl _ ih =>
    intro v x first b hx hq hr
    refine ⟨_, rfl, ?_⟩
    simp only [List.append_assoc]
    refine t_longChars hfc hb hx hq fun x hx hq => t_longGap hg hcl (fun x hx hq => ?_) hx hq
    have hi : ∀ x, LCtx fld clob f as (v ++ t) x → x.quoted = true → ∃ s', rest = TextSpec.quotes3 ++ s' ∧ T F P fld x (.long fld clob 0 true false) false false (s' ++ r) es :=
      fun x hx hq => ih hx hq (by simpa using hr)
    have hsplit : ∃ s', rest = TextSpec.quotes3 ++ s' := by
      obtain ⟨s', h1, _⟩ := hi (x.setQuoted true) ⟨hx.1, hx.2, hx.3, hx.4, hx.5, hx.6⟩ rfl
      exact ⟨s', h1⟩
    obtain ⟨s', rfl⟩ := hsplit
    rw [List.append_assoc]
    refine t_longMore hx hq fun x hx hq => ?_
    obtain ⟨s2, h1, h2⟩ := hi x hx hq
    rw [List.append_cancel_left h1]
    exact h2

/-! ## Strings -/

theorem t_longEnd (hg : Follow P g r) (hr : r.headD EOF ≠ 39) (h : Rest F P r es) {x : Ctx} (hx : LCtx false false f as v x) (hq : x.quoted = false) :
    T F P false x (.long false false 0 false false) false true (g ++ r) (scalarEv f as P.outer.length .string (some (.str v)) :: es) := by
  refine t_longGap (clob := false) hg.triv (by simp) (fun x hx hq => ?_) hx hq
  have hev : (({ x with selfDelim := false } : Ctx).event P.env.depth x.ionType (.ok (some (.str x.value)))) = scalarEv f as P.outer.length .string (some (.str v)) := by
    simp only [Ctx.event, scalarEv, hx.ionType, hx.fieldName, hx.annotations, hx.value rfl, Loc.env]
    rfl
  by_cases h47 : r.headD 0 = 47
  · cases r with
    | nil => cases h47
    | cons c r =>
      simp only [List.headD_cons] at h47
      subst h47
      obtain h1 | ⟨_, _, hsx, ho⟩ := hg.start 47 r rfl
      · exact absurd h1 (by decide)
      intro cm cf _
      refine events_token hq rfl ?_
      have he : St.env ⟨P.outer, P.ty, false, false, cm, cf, some x, .token (.long false false 0 false false) false⟩ = P.env := rfl
      have hs : P.env.inSexp = true := by simp [Env.inSexp, Loc.env, hsx]
      have : handle F P.env x (.long false false 0 false false) { code := 47 } =
          .ok { ctx := { x with selfDelim := false }, res := .imm (.sexpSlash (some (.long false false 0 false false)) (some (scalarEv f as P.outer.length .string (some (.str v))))) } := by
        rw [← hev]
        simp only [handle, onLong, show ¬ (47 : Nat) = 39 from by decide, false_and, if_false, Bool.false_eq_true, Nat.lt_irrefl, show isWs 47 = false from rfl, longAfter, hs, if_true]
      simp only [onChar, Option.getD_some, he, this, onRes, Option.map_some]
      exact run_go (events_slashOp hsx hq rfl ho (h.slash _ rfl ho hsx))
  refine t_end (x' := { x with selfDelim := false }) hq rfl ?_ hx.composite rfl ⟨by simp [scalarEv], rfl⟩ (fun _ => rfl) h.toAfter
  have h1 : isWs (r.headD EOF) = false ∧ r.headD EOF ≠ 47 := by
    cases r with
    | nil => decide
    | cons c r =>
      have := hg.start.other h47 c r rfl
      simp only [followStart, Bool.and_eq_true, Bool.not_eq_true', decide_eq_true_eq] at this
      exact this.1
  rw [← hev]
  simp only [handle, onLong, hr, false_and, if_false, Bool.false_eq_true, Nat.lt_irrefl, h1.1, longAfter, h1.2]

theorem at_longString {s : List Nat} {tx : Text} (hs : TextSpec.IsLong false s tx) (hg : Follow P g r) (hr : r.headD EOF ≠ 39) (h : Rest F P r es) :
    At F P false false (childOf f as) cm (s ++ (g ++ r)) (scalarEv f as P.outer.length .string (some (.str tx)) :: es) := by
  obtain ⟨s', rfl, ht⟩ := t_long (F := F) (P := P) (fld := false) (f := f) (as := as) (r := g ++ r) (first := true) (b := false) (es := scalarEv f as P.outer.length .string (some (.str tx)) :: es)
    (by simp) hs (v := []) (x := sctx f as .string []) ⟨rfl, rfl, rfl, rfl, by simp, fun _ => rfl⟩ rfl (fun x hx hq => t_longEnd hg hr h hx hq)
  refine at_value (x := dec f as) (h := .quote1 false) (q := true) (plain_of_idStart (.inr (.inr rfl)) P) rfl rfl ?_
  refine t_quoteImm (x' := (dec f as).setType (some .symbol)) (h' := .quote2 false) (b' := false) (.inr rfl) rfl rfl (by simp [handle]) (by simp) ?_
  exact t_imm (x' := sctx f as .string []) (h' := .long false false 0 true true) (b' := false) rfl rfl rfl (by simp) ht

/-! ## Field names -/

theorem at_longField {s : List Nat} {tx : Text} (hs : TextSpec.IsLong false s tx) (hg : TextSpec.IsTrivia g) (hk : SymK F P true none [] (.text tx) (58 :: r) es) :
    At F P true false none cm (s ++ (g ++ 58 :: r)) es := by
  obtain ⟨s', rfl, ht⟩ := t_long (F := F) (P := P) (fld := true) (f := none) (as := []) (r := g ++ 58 :: r) (first := true) (b := false) (es := es)
    (by simp) hs (v := []) (x := { fctx none [] [] with ionType := some .symbol }) ⟨rfl, rfl, rfl, rfl, fun _ => ⟨rfl, rfl, rfl⟩, by simp⟩ rfl (fun x hx hq => by
      refine t_longGap (clob := false) hg (by simp) (fun x hx hq => ?_) hx hq
      obtain ⟨h1, h2, h3⟩ := hx.field rfl
      refine t_self (x' := { x with selfDelim := false }) (t := .text tx) (f := none) (as := []) (qu := false) hq rfl ?_ ?_ (fun _ => hq) rfl (by simp) (pat_of ?_ hk)
      · simp [handle, onLong, show isWs 58 = false from rfl, longAfter]
      · have := hx.fieldName
        have := hx.annotations
        have := hx.composite
        simp only [Ctx.setType]
        split
        · next h4 => simp [hx.ionType] at h4
        · constructor <;> simp_all
      · refine startsOp_of fun c r' hc => ?_
        simp only [List.cons.injEq] at hc
        rw [← hc.1]
        decide)
  refine at_start (f := none) (as := []) (fld := true) (x := dec none []) (h := .quote1 true) (plain_of_idStart (.inr (.inr rfl)) P) rfl ?_
  refine t_quoteImm (x' := (dec none []).setType (some .symbol)) (h' := .quote2 true) (b' := false) (.inr rfl) rfl rfl (by simp [handle]) (by simp) ?_
  exact t_imm (x' := { fctx none [] [] with ionType := some .symbol }) (h' := .long true false 0 true true) (b' := false) rfl rfl rfl (by simp) ht

/-! ## Clobs -/

theorem at_longClob {w1 s w2 : List Nat} {tx : Text} {bts : Bytes} (hw1 : ∀ c ∈ w1, isWs c = true) (hs : TextSpec.IsLong true s tx) (hw2 : TextSpec.IsBlank w2)
    (ht : tx = bts.map UInt8.toNat) (h : After F P r es) :
    At F P false false (childOf f as) cm (123 :: 123 :: (w1 ++ (s ++ (w2 ++ 125 :: 125 :: r)))) (scalarEv f as P.outer.length .clob (some (.bytes bts)) :: es) := by
  have htriv : TextSpec.IsTrivia w2 := by
    induction w2 with
    | nil => exact .nil
    | cons c w ih => exact .space c w (hw2 c (by simp)) (ih fun d hd => hw2 d (by simp [hd]))
  obtain ⟨s', rfl, ht⟩ := t_long (F := F) (P := P) (fld := false) (f := f) (as := as) (r := w2 ++ 125 :: 125 :: r) (first := true) (b := false)
    (es := scalarEv f as P.outer.length .clob (some (.bytes bts)) :: es)
    (by simp) hs (v := []) (x := sctx f as .clob []) ⟨rfl, rfl, rfl, rfl, by simp, fun _ => rfl⟩ rfl (fun x hx hq => by
      refine t_longGap (clob := true) htriv (fun _ => hw2) (fun x hx hq => ?_) hx hq
      refine t_imm (x' := { x with selfDelim := false }) (h' := .clobEnd 125) (b' := false) hq rfl ?_ (by simp) ?_
      · simp [handle, onLong, show isWs 125 = false from rfl, longAfter, mkClobEnd, andGo]
      · refine t_endSelf (x' := { x with selfDelim := true }) hq rfl ?_ hx.composite rfl ⟨by simp [scalarEv], rfl⟩ h
        have hv : x.value = bts.map UInt8.toNat := by rw [hx.value rfl]; simpa using ht
        have hall : x.value.all (· < 256) = true := by
          rw [hv]
          simp only [List.all_map, List.all_eq_true, Function.comp, decide_eq_true_eq]
          exact fun b _ => b.toNat_lt
        have hb : toBytes x.value = bts := by
          rw [hv, toBytes_toNat]
        simp [handle, onClobEnd, isWs, isWsNotNl, isNewline, lobEvent, parseLob, hall, hb, scalarEv, Ctx.event, hx.fieldName, hx.annotations, Loc.env])
  refine at_lobStart (t_lobBlank hw1 ?_)
  refine t_imm (x' := sctx f as .clob []) (h' := .lobStart 1) (b' := false) rfl rfl rfl (by simp) ?_
  refine t_quoteImm (x' := sctx f as .clob []) (h' := .lobStart 2) (b' := false) (.inr rfl) rfl rfl rfl (by simp) ?_
  exact t_quoteImm (x' := sctx f as .clob []) (h' := .long false true 0 true true) (b' := false) (.inr rfl) rfl rfl rfl (by simp) ht
end

end Ion.TextReader
