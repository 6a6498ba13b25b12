import Verif.RawReaderSteps
set_option linter.unusedSimpArgs false
/-!
# The raw binary reader: reading one value
-/
namespace Ion.RawReader
open Ion Ion.Queue Ion.Fields Ion.Fields.Spec Ion.Scalars Ion.Scalars.Spec Ion.Spec

/-! ## The dispatch table -/

theorem static_none : ∀ tid < 16, ∀ ln < 15, 1 ≤ ln → tid ≠ 1 → staticScalar (tid * 16 + ln) = none := by decide +kernel
theorem static_none0 : ∀ tid < 16, tid = 0 ∨ 11 ≤ tid → staticScalar (tid * 16) = none := by decide +kernel

theorem dispatch_lengthed {o : UInt8} {tid ln : Nat} {h : LenHandler} (ho : o.toNat = tid * 16 + ln) (htid : tid < 16)
    (hln : ln < 15) (hs : (1 ≤ ln ∧ tid ≠ 1) ∨ tid = 0 ∨ 11 ≤ tid) (hh : lenHandler tid ln = some h)
    (hord : ¬ (ln = 1 ∧ tid = 13)) : dispatch o = if ln < 14 then .fixed h ln else .variable h := by
  have h1 : o.toNat / 16 = tid := by omega
  have h2 : o.toNat % 16 = ln := by omega
  have hst : staticScalar o.toNat = none := by
    rw [ho]
    by_cases h0 : ln = 0
    · subst h0
      exact static_none0 tid htid (by omega)
    · by_cases ht : tid = 1
      · subst ht; simp [lenHandler] at hh
      · exact static_none tid htid ln hln (by omega) ht
  have hne : ¬ o.toNat = 0xE0 := by
    intro he
    have ht : tid = 14 := by omega
    have hl : ln = 0 := by omega
    subst ht hl
    simp [lenHandler] at hh
  unfold dispatch
  simp only [h1, h2, hne, if_false, show ¬ ln = 15 by omega, hst, hh, hord]

/-- The type codes with a length handler, other than lists of two kinds of nibble. -/
def tidHandler : Nat → Option LenHandler
  | 0 => some .nop
  | 2 => some (.scalar .posInt)
  | 3 => some (.scalar .negInt)
  | 5 => some (.scalar .decimal)
  | 6 => some (.scalar .timestamp)
  | 7 => some (.scalar .symbol)
  | 8 => some (.scalar .string)
  | 9 => some (.scalar .clob)
  | 10 => some (.scalar .blob)
  | 11 => some (.container .list)
  | 12 => some (.container .sexp)
  | 13 => some (.container .struct)
  | 14 => some .annotation
  | _ => none

theorem lenHandler_tid : ∀ tid < 16, ∀ ln < 15, (tidHandler tid).isSome = true →
    (ln = 0 → tid = 0 ∨ tid = 11 ∨ tid = 12 ∨ tid = 13) → (tid = 14 → 3 ≤ ln) → lenHandler tid ln = tidHandler tid := by
  intro tid h1 ln h2 h3 h4 h5
  have hc : tid = 0 ∨ tid = 1 ∨ tid = 2 ∨ tid = 3 ∨ tid = 4 ∨ tid = 5 ∨ tid = 6 ∨ tid = 7 ∨ tid = 8 ∨ tid = 9 ∨ tid = 10 ∨
    tid = 11 ∨ tid = 12 ∨ tid = 13 ∨ tid = 14 ∨ tid = 15 := by omega
  rcases hc with rfl | rfl | rfl | rfl | rfl | rfl | rfl | rfl | rfl | rfl | rfl | rfl | rfl | rfl | rfl | rfl <;>
    simp only [lenHandler, tidHandler] at h3 ⊢ <;> simp at h3 h4 h5 ⊢ <;> omega

/-! ## Type octets and lengths -/

theorem type_gets {miss b : Bytes} {h : UInt8} {stack : List Frame} {ctx : Ctx} {pos : Nat} {cs : List Bytes} {q : Queue}
    {ivm atTop : Bool} (hat : At q cs pos (h :: b) miss) (hlim : LimOk ctx.depth ctx.limit (pos + 1))
    (hivm : ivm = true → h = 0xE0) (htop : atTop = true → ¬ Dry q cs) :
    Gets miss (startType q stack ctx ivm atTop) cs
      (fun o' cs' => ∃ q', o' = handle q' stack ctx (dispatch h) ∧ At q' cs' (pos + 1) b miss) := by
  refine (startRead_gets (a := [h]) (b := b) hat hlim (fun h => ⟨by simp, htop h⟩)).bind ?_
  rintro o' cs' ⟨q', rfl, hat', hs⟩
  obtain ⟨q2, h1, h2⟩ := hat'.readByte hs
  refine .pure ⟨q2, ?_, h2⟩
  simp only [resume, h1]
  rw [if_neg]
  cases ivm with
  | false => simp
  | true => rw [hivm rfl]; decide

theorem framed_gets {miss b bs body : Bytes} {tid : Nat} {lh : LenHandler} {stack : List Frame} {ctx : Ctx} {pos : Nat}
    {cs : List Bytes} {q : Queue} {atTop : Bool} (hf : Framed tid bs body) (htid : tid < 16) (hh : tidHandler tid = some lh)
    (hb0 : body = [] → (tid = 0 ∨ tid = 11 ∨ tid = 12 ∨ tid = 13) ∨ ∃ len, bs = UInt8.ofNat (tid * 16 + 14) :: len)
    (hann : tid = 14 → 3 ≤ body.length) (hord : tid = 13 → body.length ≠ 1)
    (hat : At q cs pos (bs ++ b) miss) (hlim : LimOk ctx.depth ctx.limit (pos + bs.length))
    (htop : atTop = true → ¬ Dry q cs) :
    Gets miss (startType q stack ctx false atTop) cs
      (fun o' cs' => ∃ q' p', o' = lengthed q' stack ctx lh body.length ∧ At q' cs' p' (body ++ b) miss ∧
        p' + body.length = pos + bs.length) := by
  cases hf with
  | short h body hlen hh' =>
    refine (type_gets (h := h) (b := body ++ b) (by simpa using hat) (hlim.mono (by simp)) (by simp) htop).bind ?_
    rintro o' cs' ⟨q', rfl, hat'⟩
    have hz : body.length = 0 → tid = 0 ∨ tid = 11 ∨ tid = 12 ∨ tid = 13 := by
      intro h0
      rcases hb0 (List.eq_nil_of_length_eq_zero h0) with h | ⟨len, h⟩
      · exact h
      · exfalso
        simp only [List.cons.injEq] at h
        have := congrArg UInt8.toNat h.1
        rw [ofNat_toNat_of_lt (by omega)] at this
        omega
    have hd := dispatch_lengthed (h := lh) hh' htid (by omega)
      (by
        by_cases h0 : body.length = 0
        · have := hz h0; omega
        · left
          refine ⟨by omega, ?_⟩
          rintro rfl
          simp [tidHandler] at hh)
      (by
        rw [← hh]
        exact lenHandler_tid tid htid _ (by omega) (by rw [hh]; rfl) hz hann)
      (by rintro ⟨h1, h2⟩; exact hord h2 h1)
    rw [hd, if_pos hlen]
    exact .pure ⟨q', pos + 1, rfl, hat', by simp; omega⟩
  | long h len body hh' hl =>
    refine (type_gets (h := h) (b := len ++ (body ++ b)) (by simpa using hat) (hlim.mono (by simp)) (by simp) htop).bind ?_
    rintro o' cs' ⟨q', rfl, hat'⟩
    have hd := dispatch_lengthed (h := lh) hh' htid (by omega)
      (by left; refine ⟨by omega, ?_⟩; rintro rfl; simp [tidHandler] at hh)
      (by
        rw [← hh]
        exact lenHandler_tid tid htid _ (by omega) (by rw [hh]; rfl) (by omega) (by omega))
      (by omega)
    rw [hd, if_neg (by omega)]
    refine (varUInt_gets hl.1 hat' (hlim.mono (by simp; omega))).bind ?_
    rintro o2 cs2 ⟨q2, rfl, hat2⟩
    rw [hl.2]
    exact .pure ⟨q2, pos + 1 + len.length, rfl, hat2, by simp; omega⟩

/-! ## Scalars -/

/-- The Python value of a scalar as the raw reader delivers it. -/
def pyOf : Scalar Nat → Option PyVal
  | .null _ => none
  | .bool b => some (.bool b)
  | .int i => some (.int i)
  | .float b => some (.float b)
  | .decimal d => some (.decimal d)
  | .timestamp t => some (.timestamp (.ts t))
  | .symbol n => some (.sym ⟨none, some n, none⟩)
  | .string t => some (.str t)
  | .clob b => some (.bytes b)
  | .blob b => some (.bytes b)

/-- The scalars that the reader can represent: decimals within the limits of the decimal context, fractions of seconds of
at most 28 digits. -/
def Readable : Scalar Nat → Prop
  | .decimal d => ReadRange d
  | .timestamp t => FracOk t.frac
  | _ => True

/-- The event of a scalar. -/
def scalarEv (fieldName : Option SymbolToken) (ann : List SymbolToken) (depth : Nat) (x : Scalar Nat) : IonEvent :=
  { eventType := .scalar, ionType := some x.ty, value := .ok (pyOf x), fieldName := fieldName.map .tok, annotations := ann.map .tok, depth := some depth }

/-- An annotated value ends where its wrapper ends. -/
def EndOk (ctx : Ctx) (pos : Nat) : Prop := ctx.annotations.getD [] ≠ [] → ctx.limit = some (pos : Int)

theorem At.pos {q : Queue} {cs : List Bytes} {pos : Nat} {input miss : Bytes} (h : At q cs pos input miss) :
    q.position = pos := by obtain ⟨f, hr, hp, -⟩ := h; rw [hr.pos, hp]

theorem scalarEvent_ok {ctx : Ctx} {q : Queue} {pos : Nat} {x : Scalar Nat} (hp : q.position = pos) (he : EndOk ctx pos) :
    scalarEvent ctx q x.ty (.ok (pyOf x)) = .ok (scalarEv ctx.fieldName (ctx.annotations.getD []) ctx.depth x) := by
  unfold scalarEvent scalarEv
  simp only
  split
  · rfl
  · rename_i h
    have hne : ctx.annotations.getD [] ≠ [] := by intro h0; rw [h0] at h; simp at h
    rw [he hne]
    simp [hp]

theorem static_emit {q : Queue} {stack : List Frame} {ctx : Ctx} {pos : Nat} {x : Scalar Nat} (hp : q.position = pos)
    (he : EndOk ctx pos) : handle q stack ctx (.static x.ty (pyOf x))
      = .emit (scalarEv ctx.fieldName (ctx.annotations.getD []) ctx.depth x) q stack := by
  simp only [handle, scalarEvent_ok hp he]

/-- The post-condition of reading a scalar. -/
abbrev ScalarPost (stack : List Frame) (ctx : Ctx) (x : Scalar Nat) (pos : Nat) (b miss : Bytes) (o : Outcome) (cs : List Bytes) : Prop :=
  ∃ q', o = .emit (scalarEv ctx.fieldName (ctx.annotations.getD []) ctx.depth x) q' stack ∧ At q' cs pos b miss

theorem static_gets {miss b : Bytes} {h : UInt8} {x : Scalar Nat} {stack : List Frame} {ctx : Ctx} {pos : Nat} {cs : List Bytes}
    {q : Queue} {atTop : Bool} (hd : dispatch h = .static x.ty (pyOf x)) (hat : At q cs pos (h :: b) miss)
    (hlim : LimOk ctx.depth ctx.limit (pos + 1)) (he : EndOk ctx (pos + 1)) (htop : atTop = true → ¬ Dry q cs) :
    Gets miss (startType q stack ctx false atTop) cs (ScalarPost stack ctx x (pos + 1) b miss) := by
  refine (type_gets hat hlim (by simp) htop).bind ?_
  rintro o' cs' ⟨q', rfl, hat'⟩
  rw [hd, static_emit hat'.pos he]
  exact .pure ⟨q', rfl, hat'⟩

theorem finishScalar_ok {q : Queue} {stack : List Frame} {ctx : Ctx} {pos : Nat} {k : ScalarKind} {x : Scalar Nat} {body : Bytes}
    (hk : k.ionType = x.ty) (hv : scalarValue k body = .ok (pyOf x)) (hfl : k = .float → body.length = 4 ∨ body.length = 8)
    (hp : q.position = pos) (he : EndOk ctx pos) : finishScalar q stack ctx k body
      = .emit (scalarEv ctx.fieldName (ctx.annotations.getD []) ctx.depth x) q stack := by
  unfold finishScalar
  rw [if_neg (by rintro ⟨h1, h2, h3⟩; have := hfl h1; omega), hv, hk, scalarEvent_ok hp he]

/-- A scalar with a length. -/
theorem lengthed_scalar {miss b body : Bytes} {x : Scalar Nat} {k : ScalarKind} {stack : List Frame} {ctx : Ctx} {pos : Nat}
    {cs : List Bytes} {q : Queue} (hk : k.ionType = x.ty) (hv : scalarValue k body = .ok (pyOf x))
    (hfl : k = .float → body.length = 4 ∨ body.length = 8) (hat : At q cs pos (body ++ b) miss)
    (hlim : LimOk ctx.depth ctx.limit (pos + body.length)) (he : EndOk ctx (pos + body.length)) :
    Gets miss (lengthed q stack ctx (.scalar k) body.length) cs (ScalarPost stack ctx x (pos + body.length) b miss) := by
  simp only [lengthed]
  split
  · rename_i h0
    have h0' := List.eq_nil_of_length_eq_zero h0
    subst h0'
    rw [finishScalar_ok hk hv hfl hat.pos (by simpa using he)]
    exact .pure ⟨q, rfl, hat⟩
  · refine (startRead_gets hat hlim (by simp)).bind ?_
    rintro o' cs' ⟨q', rfl, hat', hs⟩
    obtain ⟨q2, h1, h2⟩ := hat'.read hs
    simp only [resume, h1]
    rw [finishScalar_ok hk hv hfl h2.pos he]
    exact .pure ⟨q2, rfl, h2⟩

/-- A framed scalar; an empty body may have a type octet of its own. -/
theorem framed_scalar {miss b bs body : Bytes} {tid : Nat} {x : Scalar Nat} {k : ScalarKind} {stack : List Frame} {ctx : Ctx}
    {pos : Nat} {cs : List Bytes} {q : Queue} {atTop : Bool} (hf : Framed tid bs body) (htid : tid < 14)
    (hh : tidHandler tid = some (.scalar k)) (hk : k.ionType = x.ty) (hv : scalarValue k body = .ok (pyOf x))
    (hkf : k ≠ .float)
    (hz : body = [] → ∀ o : UInt8, o.toNat = tid * 16 → dispatch o = .static x.ty (pyOf x))
    (hat : At q cs pos (bs ++ b) miss) (hlim : LimOk ctx.depth ctx.limit (pos + bs.length))
    (he : EndOk ctx (pos + bs.length)) (htop : atTop = true → ¬ Dry q cs) :
    Gets miss (startType q stack ctx false atTop) cs (ScalarPost stack ctx x (pos + bs.length) b miss) := by
  have hne : tid ≠ 13 ∧ tid ≠ 14 := by
    constructor <;> rintro rfl <;> simp [tidHandler] at hh
  by_cases hcase : body = [] ∧ ¬ ∃ len, bs = UInt8.ofNat (tid * 16 + 14) :: len
  · obtain ⟨rfl, hns⟩ := hcase
    cases hf with
    | short h body hlen hh' =>
      exact static_gets (hz rfl h (by simpa using hh')) hat hlim he htop
    | long h len body hh' hl =>
      refine absurd ⟨len ++ [], ?_⟩ hns
      · congr 1
        apply UInt8.toNat_inj.1
        rw [hh', ofNat_toNat_of_lt (by omega)]
  · refine (framed_gets hf (by omega) hh ?_ (by omega) (by omega) hat hlim htop).bind ?_
    · intro hb
      right
      apply Classical.byContradiction
      intro hc
      exact hcase ⟨hb, hc⟩
    · rintro o' cs' ⟨q', p', rfl, hat', hp⟩
      rw [← hp]
      exact lengthed_scalar hk hv (fun h => absurd h hkf) hat' (by rw [hp]; exact hlim) (by rw [hp]; exact he)

theorem dispatch_of {o : UInt8} {n : Nat} (h : o.toNat = n) : o = UInt8.ofNat n := by
  apply UInt8.toNat_inj.1
  rw [h, ofNat_toNat_of_lt (by have := uint8_lt o; omega)]

theorem decode_encode {t : Text} {body : Bytes} (h : Utf8.encode t = .ok body) : Utf8.decode body = .ok t := by
  exact Utf8.decode_encode _ _ h

/-- Reading a scalar. -/
theorem scalar_gets {miss b inner : Bytes} {x : Scalar Nat} {stack : List Frame} {ctx : Ctx} {pos : Nat} {cs : List Bytes}
    {q : Queue} {atTop : Bool} (hx : IsScalar inner x) (hread : Readable x) (hat : At q cs pos (inner ++ b) miss)
    (hlim : LimOk ctx.depth ctx.limit (pos + inner.length)) (he : EndOk ctx (pos + inner.length))
    (htop : atTop = true → ¬ Dry q cs) :
    Gets miss (startType q stack ctx false atTop) cs (ScalarPost stack ctx x (pos + inner.length) b miss) := by
  cases hx with
  | null ty h hh =>
    refine static_gets ?_ hat hlim he htop
    rcases hh with hh | ⟨rfl, hh⟩
    · rw [dispatch_of hh]; cases ty <;> decide +kernel
    · rw [dispatch_of hh]; decide +kernel
  | bool v =>
    refine static_gets ?_ hat hlim he htop
    cases v <;> decide +kernel
  | int bs body neg hf hnz =>
    cases neg with
    | false =>
      refine framed_scalar (k := .posInt) hf (by decide) rfl rfl ?_ (by decide) ?_ hat hlim he htop
      · simp only [scalarValue, C04_parse_int, pyOf]; simp
      · rintro rfl o ho
        rw [dispatch_of ho]; decide +kernel
    | true =>
      refine framed_scalar (k := .negInt) hf (by decide) rfl rfl ?_ (by decide) ?_ hat hlim he htop
      · simp only [scalarValue, C04_parse_int, pyOf]; simp
      · rintro rfl
        exact absurd rfl (hnz rfl)
  | float0 => exact static_gets (x := .float 0) (by decide +kernel) hat hlim he htop
  | float4 body hb =>
    refine (type_gets hat (hlim.mono (by simp)) (by simp) htop).bind ?_
    rintro o' cs' ⟨q', rfl, hat'⟩
    rw [show dispatch 0x44 = .fixed (.scalar .float) 4 from by decide +kernel]
    have := lengthed_scalar (x := .float (UInt64.ofNat (Scalars.widen (base256 0 body)))) (k := .float) (stack := stack) (ctx := ctx) rfl
      (by simp only [scalarValue, (C07_float_bodies body).2.1 hb, pyOf]; rfl) (fun _ => .inl hb) hat'
      (hlim.mono (by simp; omega)) (by simpa [Nat.add_assoc, Nat.add_comm 1] using he)
    rw [hb] at this
    simpa [handle, hb, Nat.add_assoc, Nat.add_comm 1] using this
  | float8 body hb =>
    refine (type_gets hat (hlim.mono (by simp)) (by simp) htop).bind ?_
    rintro o' cs' ⟨q', rfl, hat'⟩
    rw [show dispatch 0x48 = .fixed (.scalar .float) 8 from by decide +kernel]
    have := lengthed_scalar (x := .float (UInt64.ofNat (base256 0 body))) (k := .float) (stack := stack) (ctx := ctx) rfl
      (by simp only [scalarValue, (C07_float_bodies body).1 hb, pyOf]; rfl) (fun _ => .inr hb) hat'
      (hlim.mono (by simp; omega)) (by simpa [Nat.add_assoc, Nat.add_comm 1] using he)
    rw [hb] at this
    simpa [handle, hb, Nat.add_assoc, Nat.add_comm 1] using this
  | decimal0 => exact static_gets (x := .decimal ⟨false, 0, 0⟩) (by decide +kernel) hat hlim he htop
  | decimal bs body d hf hne hd =>
    refine framed_scalar (k := .decimal) hf (by decide) rfl rfl ?_ (by decide) ?_ hat hlim he htop
    · simp only [scalarValue, C05_reader_exact body d hne hd hread, pyOf]; rfl
    · intro h; exact absurd h hne
  | timestamp bs body t hf ht =>
    refine framed_scalar (k := .timestamp) hf (by decide) rfl rfl ?_ (by decide) ?_ hat hlim he htop
    · simp only [scalarValue, parseTimestamp_spec body t ht hread, pyOf]; rfl
    · rintro rfl
      obtain ⟨p, u, off, fields, -, hoff, -, -, hb⟩ := ht
      obtain ⟨h1, -⟩ := List.append_eq_nil_iff.1 hb.symm
      subst h1
      rcases hoff with ⟨-, -, b, r, h, -⟩ | ⟨_, _, ⟨-, b, r, h, -⟩, -⟩ <;> simp at h
  | symbol bs body hf =>
    refine framed_scalar (k := .symbol) hf (by decide) rfl rfl ?_ (by decide) ?_ hat hlim he htop
    · simp only [scalarValue, pyOf, Scalars.parseSymbol, C04_parse_int]; simp
    · rintro rfl o ho
      rw [dispatch_of ho]; decide +kernel
  | string bs body t hf ht =>
    have hdec := decode_encode ht
    refine framed_scalar (k := .string) hf (by decide) rfl rfl ?_ (by decide) ?_ hat hlim he htop
    · simp only [scalarValue, hdec, pyOf]; rfl
    · rintro rfl o ho
      have : t = [] := by
        have h0 : Utf8.decode [] = .ok [] := by decide +kernel
        rw [h0] at hdec
        simpa using hdec.symm
      subst this
      rw [dispatch_of ho]; decide +kernel
  | clob bs body hf =>
    refine framed_scalar (k := .clob) hf (by decide) rfl rfl rfl (by decide) ?_ hat hlim he htop
    rintro rfl o ho
    rw [dispatch_of ho]; decide +kernel
  | blob bs body hf =>
    refine framed_scalar (k := .blob) hf (by decide) rfl rfl rfl (by decide) ?_ hat hlim he htop
    rintro rfl o ho
    rw [dispatch_of ho]; decide +kernel

/-! ## Annotation wrappers -/

/-- The token of a symbol ID as the raw reader delivers it. -/
def sidTok (n : Nat) : SymbolToken := ⟨none, some n, none⟩

theorem Delimited.ne_nil {bs : Bytes} (h : Delimited bs) : bs ≠ [] := by cases h <;> simp

theorem parseSids_spec {bs : Bytes} {ns : List Nat} (h : IsSids bs ns) : ∀ n, bs.length ≤ n → parseSids n bs = .ok ns := by
  induction h with
  | nil => intro n _; cases n <;> rfl
  | cons a bs k ks ha _ ih =>
    intro n hn
    have hl := List.length_pos_iff.2 (Delimited.ne_nil ha.1)
    have hne : a ++ bs ≠ [] := by simp [Delimited.ne_nil ha.1]
    simp only [List.length_append] at hn
    cases n with
    | zero => omega
    | succ n =>
      cases hab : a ++ bs with
      | nil => exact absurd hab hne
      | cons x xs =>
        unfold parseSids
        rw [← hab, parseVarLoop_delimited ha.1 0 bs]
        simp only [bind, Except.bind, pure, Except.pure, ih n (by omega), ha.2]

theorem isSids_length {bs : Bytes} {ns : List Nat} (h : IsSids bs ns) (hn : ns ≠ []) : 1 ≤ bs.length := by
  cases h with
  | nil => exact absurd rfl hn
  | cons a bs k ks ha _ =>
    have := List.length_pos_iff.2 (Delimited.ne_nil ha.1)
    simp; omega

/-- The context in which the value inside a wrapper is read. -/
def wrapCtx (ctx : Ctx) (ann : List Nat) (stop : Nat) : Ctx :=
  if ann = [] then ctx else { ctx with limit := some (stop : Int), annotations := some (ann.map sidTok) }

/-- Reading up to the value inside the annotation wrapper, if there is one. -/
theorem wrapped_gets {miss b inner v : Bytes} {ann : List Nat} {stack : List Frame} {ctx : Ctx} {pos : Nat} {cs : List Bytes}
    {q : Queue} {atTop : Bool} (hw : Wrapped ann inner v) (hne : inner ≠ []) (hctx : ctx.annotations = none)
    (hat : At q cs pos (v ++ b) miss) (hlim : LimOk ctx.depth ctx.limit (pos + v.length)) (htop : atTop = true → ¬ Dry q cs) :
    Gets miss (startType q stack ctx false atTop) cs
      (fun o' cs' => ∃ q' p' top', o' = startType q' stack (wrapCtx ctx ann (pos + v.length)) false top' ∧
        At q' cs' p' (inner ++ b) miss ∧ p' + inner.length = pos + v.length ∧ (top' = true → ¬ Dry q' cs')) := by
  cases hw with
  | bare => exact .pure ⟨q, pos, atTop, by simp [wrapCtx], hat, rfl, htop⟩
  | wrapper ann len sids inner bs hann hsids hlen hf =>
    have h1 := List.length_pos_iff.2 (Delimited.ne_nil hlen.1)
    have h2 := isSids_length hsids hann
    have h3 := List.length_pos_iff.2 hne
    have hb : 3 ≤ (len ++ sids ++ inner).length := by simp; omega
    refine (framed_gets (lh := .annotation) hf (by omega) rfl ?_ (fun _ => hb) (by omega) hat hlim htop).bind ?_
    · intro h0; rw [h0] at hb; simp at hb
    rintro o' cs' ⟨q', p', rfl, hat', hp'⟩
    simp only [lengthed, hctx, Option.isSome_none, Bool.false_eq_true, if_false]
    have hlimit : q'.position + ((len ++ sids ++ inner).length : Nat) = ((pos + v.length : Nat) : Int) := by
      rw [hat'.pos]; omega
    rw [hlimit]
    have hlim' : ∀ k, k ≤ pos + v.length → LimOk ctx.depth (some ((pos + v.length : Nat) : Int)) k := by
      intro k hk; exact .inr ⟨_, rfl, by omega⟩
    simp only [List.length_append] at hp'
    refine (varUInt_gets (b := sids ++ inner ++ b) hlen.1 (by simpa using hat') (hlim' _ (by omega))).bind ?_
    rintro o2 cs2 ⟨q2, rfl, hat2⟩
    rw [hlen.2]
    simp only [useVar]
    rw [if_neg (by omega)]
    refine (startRead_gets (a := sids) (b := inner ++ b) (by simpa using hat2) (hlim' _ (by omega)) (by simp)).bind ?_
    rintro o3 cs3 ⟨q3, rfl, hat3, hs3⟩
    obtain ⟨q4, h4, hat4⟩ := hat3.read hs3
    simp only [resume, h4, parseSids_spec hsids _ (Nat.le_refl _)]
    rw [if_neg (by rw [hat4.pos]; omega)]
    refine .pure ⟨q4, _, false, ?_, hat4, by omega, by simp⟩
    simp only [wrapCtx, hann, if_false, sidTok]
    rfl

/-! ## Containers -/

/-- The event that starts a container. -/
def startEv (fieldName : Option SymbolToken) (ann : List SymbolToken) (depth : Nat) (ty : CType) : IonEvent :=
  { eventType := .containerStart, ionType := some ty.ty, fieldName := fieldName.map .tok, annotations := ann.map .tok, depth := some depth }

/-- The event that ends a container. -/
def endEv (depth : Nat) (ty : CType) : IonEvent := { eventType := .containerEnd, ionType := some ty.ty, depth := some depth }

/-- A value has at least one byte. -/
theorem framed_ne_nil {tid : Nat} {bs body : Bytes} (h : Framed tid bs body) : bs ≠ [] := by cases h <;> simp

theorem isScalar_ne_nil {bs : Bytes} {x : Scalar Nat} (h : IsScalar bs x) : bs ≠ [] := by
  cases h with
  | null | bool | float0 | float4 | float8 | decimal0 => simp
  | int _ _ _ h => exact framed_ne_nil h
  | decimal _ _ _ h => exact framed_ne_nil h
  | timestamp _ _ _ h => exact framed_ne_nil h
  | symbol _ _ h => exact framed_ne_nil h
  | string _ _ _ h => exact framed_ne_nil h
  | clob _ _ h => exact framed_ne_nil h
  | blob _ _ h => exact framed_ne_nil h

theorem framedContainer_ne_nil {ty : CType} {o : Bool} {bs body : Bytes} (h : FramedContainer ty o bs body) : bs ≠ [] := by
  cases h with
  | list _ _ _ h => exact framed_ne_nil h
  | sexp _ _ _ h => exact framed_ne_nil h
  | struct _ _ _ h => exact framed_ne_nil h
  | ordered => simp

theorem wrapped_ne_nil {ann : List Nat} {inner bs : Bytes} (h : Wrapped ann inner bs) (hi : inner ≠ []) : bs ≠ [] := by
  cases h with
  | bare => exact hi
  | wrapper _ _ _ _ _ _ _ _ h => exact framed_ne_nil h

/-- A non-empty struct body has at least two bytes. -/
theorem items_struct_length {body : Bytes} {items : List (Node Nat)} (h : IsItems true body items) (hne : body ≠ []) :
    2 ≤ body.length := by
  cases h with
  | nil => exact absurd rfl hne
  | pad _ f p pb rest _ hf hp _ =>
    simp only [IsPadField, if_true] at hf
    have h1 := List.length_pos_iff.2 (Delimited.ne_nil hf.1)
    have h2 := List.length_pos_iff.2 (framed_ne_nil hp)
    simp; omega
  | scalar _ f inner v rest _ _ _ _ hf hi hw _ =>
    cases hf with
    | some f n hf =>
      have h1 := List.length_pos_iff.2 (Delimited.ne_nil hf.1)
      have h2 := List.length_pos_iff.2 (wrapped_ne_nil hw (isScalar_ne_nil hi))
      simp; omega
  | cont _ f body inner v rest _ _ _ _ _ _ hf _ _ hc hw _ =>
    cases hf with
    | some f n hf =>
      have h1 := List.length_pos_iff.2 (Delimited.ne_nil hf.1)
      have h2 := List.length_pos_iff.2 (wrapped_ne_nil hw (framedContainer_ne_nil hc))
      simp; omega

theorem containerStart_ok {q : Queue} {stack : List Frame} {ctx : Ctx} {pos n : Nat} {ty : CType} (hp : q.position = pos)
    (he : EndOk ctx (pos + n)) : containerStart q stack ctx ty.ty n
      = .emit (startEv ctx.fieldName (ctx.annotations.getD []) ctx.depth ty) q
          (⟨some ty.ty, some ((pos + n : Nat) : Int), ctx.depth + 1, true⟩ :: stack) := by
  unfold containerStart
  have hl : q.position + (n : Int) = ((pos + n : Nat) : Int) := by rw [hp]; push_cast; rfl
  simp only [hl]
  rw [if_neg]
  · rfl
  · rintro ⟨h1, h2⟩
    refine h2 (he ?_)
    intro h0; rw [h0] at h1; simp at h1

/-- The post-condition of reading the start of a container. -/
abbrev ContPost (stack : List Frame) (ctx : Ctx) (ty : CType) (body : Bytes) (stop : Nat) (b miss : Bytes) (o : Outcome)
    (cs : List Bytes) : Prop :=
  ∃ q' p', o = .emit (startEv ctx.fieldName (ctx.annotations.getD []) ctx.depth ty) q'
      (⟨some ty.ty, some (stop : Int), ctx.depth + 1, true⟩ :: stack) ∧ At q' cs p' (body ++ b) miss ∧ p' + body.length = stop

/-- Reading the start of a container. -/
theorem container_gets {miss b inner body : Bytes} {ty : CType} {ordered : Bool} {children : List (Node Nat)} {stack : List Frame}
    {ctx : Ctx} {pos : Nat} {cs : List Bytes} {q : Queue} {atTop : Bool} (hc : FramedContainer ty ordered inner body)
    (hitems : IsItems (ty = .struct) body children) (hat : At q cs pos (inner ++ b) miss)
    (hlim : LimOk ctx.depth ctx.limit (pos + inner.length)) (he : EndOk ctx (pos + inner.length))
    (htop : atTop = true → ¬ Dry q cs) :
    Gets miss (startType q stack ctx false atTop) cs (ContPost stack ctx ty body (pos + inner.length) b miss) := by
  have main : ∀ {tid : Nat} {ty : CType} (_ : Framed tid inner body) (_ : tid = 11 ∨ tid = 12 ∨ tid = 13)
      (_ : tid = 13 → body.length ≠ 1) (_ : tidHandler tid = some (.container ty.ty)),
      Gets miss (startType q stack ctx false atTop) cs (ContPost stack ctx ty body (pos + inner.length) b miss) := by
    intro tid ty hf ht ho hh
    refine (framed_gets hf (by omega) hh ?_ (by omega) ho hat hlim htop).bind ?_
    · intro _; left; omega
    · rintro o' cs' ⟨q', p', rfl, hat', hp⟩
      simp only [lengthed]
      rw [containerStart_ok hat'.pos (by rw [hp]; exact he), hp]
      exact .pure ⟨q', p', rfl, hat', hp⟩
  cases hc with
  | list _ _ _ hf => exact main hf (by omega) (by omega) rfl
  | sexp _ _ _ hf => exact main hf (by omega) (by omega) rfl
  | struct _ _ _ hf =>
    refine main hf (by omega) (fun _ h1 => ?_) rfl
    have := items_struct_length (by simpa using hitems) (by intro h0; rw [h0] at h1; simp at h1)
    omega
  | ordered len body hne hlen =>
    have hl := items_struct_length (by simpa using hitems) hne
    refine (type_gets (h := 0xD1) (b := len ++ (body ++ b)) (by simpa using hat) (hlim.mono (by simp)) (by simp) htop).bind ?_
    rintro o' cs' ⟨q', rfl, hat'⟩
    rw [show dispatch 0xD1 = .ordered from by decide +kernel]
    simp only [handle]
    simp only [List.length_cons, List.length_append] at hlim he ⊢
    refine (varUInt_gets hlen.1 hat' (hlim.mono (by omega))).bind ?_
    rintro o2 cs2 ⟨q2, rfl, hat2⟩
    rw [hlen.2]
    simp only [useVar]
    rw [if_neg (by omega)]
    have hstop : pos + 1 + len.length + body.length = pos + (len.length + body.length + 1) := by omega
    have := containerStart_ok (stack := stack) (ty := .struct) (n := body.length) hat2.pos (by rw [hstop]; exact he)
    simp only [CType.ty] at this
    rw [this, hstop]
    exact .pure ⟨q2, _, rfl, hat2, hstop⟩

/-! ## NOP padding -/

/-- A pad is read silently. -/
theorem pad_gets {miss b p body : Bytes} {stack : List Frame} {ctx : Ctx} {pos : Nat} {cs : List Bytes} {q : Queue}
    {atTop : Bool} (hf : Framed 0 p body) (hfld : namedPad ctx.fieldName = false) (hat : At q cs pos (p ++ b) miss)
    (hlim : LimOk ctx.depth ctx.limit (pos + p.length)) (htop : atTop = true → ¬ Dry q cs) :
    Gets miss (startType q stack ctx false atTop) cs
      (fun o' cs' => ∃ q', o' = containerLoop q' stack ∧ At q' cs' (pos + p.length) b miss) := by
  refine (framed_gets (lh := .nop) hf (by omega) rfl (fun _ => .inl (.inl rfl)) (by omega) (by omega) hat hlim htop).bind ?_
  rintro o' cs' ⟨q', p', rfl, hat', hp⟩
  simp only [lengthed, hfld, Bool.false_eq_true, if_false]
  rw [← hp]
  split
  · exact skip_gets hat' (by rw [hp]; exact hlim)
  · rename_i h0
    have h0' : body.length = 0 := by omega
    have := List.eq_nil_of_length_eq_zero h0'
    subst this
    exact .step (.pure ⟨q', rfl, hat'⟩)

end Ion.RawReader
