import Verif.RawWriter
import Verif.TimestampSpec
import Verif.Props.BufferTree
set_option linter.unusedSimpArgs false
/-!
# The raw writer against the specification of the binary encoding
-/
namespace Ion.Spec
open Ion

/-- Python values that the scalar serializers preserve (C08); everything but unusual timestamps. -/
def RegularVal : PyVal → Prop
  | .timestamp t => Scalars.RegularTime t
  | _ => True

/-- Python values that have an encoding at all: text without surrogates, decimals within the limits of the decimal
context (C05), timestamps whose UTC time is within the years 1 to 9999. -/
def EncodableVal : PyVal → Prop
  | .str t => ∀ c ∈ t, c < 0xD800 ∨ (0xDFFF < c ∧ c ≤ 0x10FFFF)
  | .decimal d => numDigits d.coeff ≤ 1000000 ∧ (d.exp.natAbs : Int) ≤ 2 * (999999 + numDigits d.coeff)
  | .timestamp t => ∀ o, t.dateTime.tz = some o → ∃ u, t.dateTime.addMicros (-o) = .ok u
  | _ => True

end Ion.Spec

namespace Ion.RawWriter
open Ion Ion.Fields Ion.Fields.Spec Ion.Scalars Ion.Scalars.Spec Ion.Spec

theorem writeIntValue_spec (tid : Nat) (ht : tid < 16) (n : Nat) :
    ∃ body, Framed tid (toBytes (writeIntValue (tid * 16) n)) body ∧ base256 0 body = n := by
  refine ⟨toBytes (writeUInt n), ?_, (C01_uint n 1).1.2⟩
  exact framed_writeLength tid ht (writeUInt n)

theorem serializeInt_spec (i : Int) : IsScalar (toBytes (serializeInt i)) (.int i) := by
  unfold serializeInt
  by_cases h0 : i = 0
  · subst h0
    exact IsScalar.int [0x20] [] false (.short 0x20 [] (by simp) (by decide)) (by simp)
  · rw [if_neg h0]
    by_cases hn : i < 0
    · rw [if_pos hn]
      obtain ⟨body, hb, hv⟩ := writeIntValue_spec 3 (by omega) i.natAbs
      have := IsScalar.int _ body true hb (by intro _; rw [hv]; omega)
      rw [hv] at this
      simp only [if_true] at this
      rwa [show -((i.natAbs : Nat) : Int) = i by omega] at this
    · rw [if_neg hn]
      obtain ⟨body, hb, hv⟩ := writeIntValue_spec 2 (by omega) i.natAbs
      have := IsScalar.int _ body false hb (by intro h; cases h)
      rw [hv] at this
      simp only [Bool.false_eq_true, if_false] at this
      rwa [show ((i.natAbs : Nat) : Int) = i by omega] at this

theorem serializeSymbol_spec (n : Nat) : IsScalar (toBytes (serializeSymbol n)) (.symbol n) := by
  unfold serializeSymbol
  by_cases h0 : n = 0
  · subst h0
    exact IsScalar.symbol [0x70] [] (.short 0x70 [] (by simp) (by decide))
  · rw [if_neg h0]
    obtain ⟨body, hb, hv⟩ := writeIntValue_spec 7 (by omega) n
    have := IsScalar.symbol _ body hb
    rwa [hv] at this

theorem serializeBool_spec (b : Bool) : IsScalar (toBytes (serializeBool b)) (.bool b) := by
  have := IsScalar.bool b
  cases b <;> exact this

theorem serializeFloat_spec (bits : UInt64) : IsScalar (toBytes (serializeFloat bits)) (.float bits) := by
  unfold serializeFloat
  by_cases h : bits = 0
  · subst h
    exact IsScalar.float0
  · rw [if_neg h, toBytes_cons]
    have hb : UInt64.ofNat (base256 0 (toBytes (packBE8 bits))) = bits := by
      have := C07_float_bits bits
      rcases this with ⟨h0, -⟩ | ⟨-, -⟩
      · exact absurd h0 h
      · have hlt := bits.toNat_lt
        have : base256 0 (toBytes (packBE8 bits)) = bits.toNat := by
          simp only [packBE8, List.range, List.range.loop, List.map, toBytes_cons, toBytes_nil, base256]
          simp only [Nat.reducePow, Nat.reduceSub]
          have hm : ∀ x, (UInt8.ofNat (x % 256)).toNat = x % 256 := fun x => ofNat_toNat_of_lt (by omega)
          simp only [hm]
          generalize bits.toNat = n at *
          omega
        rw [this]
        simp
    have := IsScalar.float8 (toBytes (packBE8 bits)) (by simp [packBE8])
    rw [hb] at this
    exact this

theorem nullByte_spec (ty : IonType) : IsScalar (toBytes [nullByte ty]) (.null ty) := by
  refine IsScalar.null ty _ (.inl ?_)
  cases ty <;> decide

/-- The scalar serializers produce an encoding of the scalar. -/
theorem serializeValue_spec (ty : IonType) (v : PyVal) (x : Scalar Nat) (hd : denote (·.sid) ty (some v) = some x)
    (hr : RegularVal v) (bs : List Nat) (h : serializeValue ty v = .ok bs) : IsScalar (toBytes bs) x := by
  cases ty <;> cases v <;> simp only [denote, Option.some.injEq, reduceCtorEq, Option.map_eq_some_iff] at hd <;>
    simp only [serializeValue] at h
  · subst hd; simp only [Except.ok.injEq] at h; subst h; exact serializeBool_spec _
  · subst hd; simp only [Except.ok.injEq] at h; subst h; exact serializeBool_spec _
  · subst hd; simp only [Except.ok.injEq] at h; subst h; exact serializeInt_spec _
  · subst hd; simp only [Except.ok.injEq] at h; subst h; exact serializeFloat_spec _
  · subst hd
    obtain ⟨body, hf, hb, h0⟩ := C05_writer_exact _ _ h
    by_cases hbn : body = []
    · subst hbn
      rw [h0 rfl]
      rcases hb with ⟨-, rfl⟩ | ⟨ef, cf, neg, n, he, ⟨-, b, r, hbr, -⟩, -⟩
      · exact .decimal0
      · rw [hbr] at he; simp at he
    · exact .decimal _ _ _ hf hbn hb
  · subst hd
    unfold serializeTimestamp at h
    rename_i t
    cases hb : timestampBody t with
    | error e => rw [hb] at h; cases h
    | ok body =>
      rw [hb] at h
      simp only [bind, Except.bind, pure, Except.pure, Except.ok.injEq] at h
      subst h
      exact .timestamp _ _ _ (framed_writeLength 6 (by omega) body) (timestampBody_spec t hr body hb)
  · obtain ⟨sid, hs, rfl⟩ := hd
    rw [hs] at h
    simp only [Except.ok.injEq] at h
    subst h
    exact serializeSymbol_spec _
  · subst hd
    rename_i t
    unfold serializeString at h
    cases t with
    | nil =>
      simp at h
      subst h
      exact .string _ [] _ (.short 0x80 [] (by simp) (by decide)) rfl
    | cons c t =>
      simp only [List.isEmpty_cons, Bool.false_eq_true, if_false] at h
      cases he : Utf8.encode (c :: t) with
      | error e => rw [he] at h; simp [bind, Except.bind] at h
      | ok body =>
        rw [he] at h
        simp only [bind, Except.bind, pure, Except.pure, Except.ok.injEq] at h
        subst h
        refine .string _ body _ ?_ he
        have := framed_writeLength 8 (by omega) (body.map UInt8.toNat)
        rw [toBytes_map_toNat, List.length_map] at this
        exact this
  · subst hd
    simp only [serializeLobVal, Except.ok.injEq] at h
    subst h
    exact .clob _ _ (C06_lob_roundtrip true _)
  · subst hd
    simp only [serializeLobVal, Except.ok.injEq] at h
    subst h
    exact .blob _ _ (C06_lob_roundtrip false _)

theorem timestampBody_accepts (v : TimeVal) (hr : RegularTime v) :
    (∃ bs, timestampBody v = .ok bs) ↔ ∀ o, v.dateTime.tz = some o → ∃ u, v.dateTime.addMicros (-o) = .ok u := by
  cases v with
  | dt d =>
    unfold timestampBody
    cases htz : d.tz with
    | none => simp [TimeVal.dateTime, TimeVal.precision, Precision.includesSecond, Precision.toNat, htz, bind, Except.bind, pure, Except.pure]
    | some o =>
      simp only [TimeVal.dateTime, htz, bind, Except.bind, pure, Except.pure]
      cases ha : d.addMicros (-o) with
      | error e => simp [ha]
      | ok u => simp [ha, TimeVal.precision, Precision.includesSecond, Precision.toNat]
  | ts t =>
    have hfb : ∃ fb, writeTimestampFraction t.frac = .ok fb := by
      obtain ⟨⟨a, hnew⟩, hoff, hfr, hdate⟩ := hr
      obtain ⟨hunit, hzn, hdig, hmic⟩ := new_frac_facts hnew hfr.1
      obtain ⟨fb, hfb, -⟩ := fraction_spec t.frac hfr hunit hzn
      exact ⟨fb, hfb⟩
    obtain ⟨fb, hfb⟩ := hfb
    unfold timestampBody
    simp only [hfb]
    by_cases hs : (TimeVal.ts t).precision.includesSecond = true <;>
    cases htz : t.dt.tz with
    | none => simp [TimeVal.dateTime, htz, hs, bind, Except.bind, pure, Except.pure]
    | some o =>
      simp only [TimeVal.dateTime, htz, bind, Except.bind, pure, Except.pure]
      cases ha : t.dt.addMicros (-o) with
      | error e => simp [ha]
      | ok u => simp [ha, hs]

/-- The scalar serializers accept a value that fits its type exactly if it has an encoding. -/
theorem serializeValue_accepts (ty : IonType) (v : PyVal) (x : Scalar Nat) (hd : denote (·.sid) ty (some v) = some x)
    (hr : RegularVal v) : (∃ bs, serializeValue ty v = .ok bs) ↔ EncodableVal v := by
  cases ty <;> cases v <;> simp only [denote, Option.some.injEq, reduceCtorEq, Option.map_eq_some_iff] at hd <;>
    simp only [serializeValue, EncodableVal]
  · exact ⟨fun _ => trivial, fun _ => ⟨_, rfl⟩⟩
  · exact ⟨fun _ => trivial, fun _ => ⟨_, rfl⟩⟩
  · exact ⟨fun _ => trivial, fun _ => ⟨_, rfl⟩⟩
  · exact ⟨fun _ => trivial, fun _ => ⟨_, rfl⟩⟩
  · exact C05_writer_accepts _
  · rename_i t
    rw [← timestampBody_accepts t hr]
    unfold serializeTimestamp
    cases timestampBody t with
    | error e => simp [bind, Except.bind]
    | ok b => simp [bind, Except.bind, pure, Except.pure]
  · obtain ⟨sid, hs, rfl⟩ := hd
    simp [hs]
  · exact C06_string_accepts _
  · simp [serializeLobVal]
  · simp [serializeLobVal]

/-! ## Annotations, headers -/

theorem annotationSids_spec (as : List SymArg) (ns : List Nat) (h : allSome argSid as = some ns) :
    ∃ bs, annotationSids as = .ok bs ∧ IsSids (toBytes bs) ns := by
  induction as generalizing ns with
  | nil =>
    simp only [allSome, Option.some.injEq] at h
    subst h
    exact ⟨[], rfl, .nil⟩
  | cons a as ih =>
    simp only [allSome] at h
    split at h
    · rename_i b bs hb hbs
      simp only [Option.some.injEq] at h
      subst h
      obtain ⟨l, hl, hs⟩ := ih bs hbs
      cases a with
      | text t => simp [argSid] at hb
      | tok t =>
        simp only [argSid] at hb
        refine ⟨writeVarUInt b ++ l, ?_, ?_⟩
        · simp [annotationSids, sidOf, hb, hl, bind, Except.bind, pure, Except.pure]
        · rw [toBytes_append]; exact .cons _ _ _ _ (varUInt_spec b) hs
    · cases h

theorem annotationHeader_spec (as : List SymArg) (ns : List Nat) (h : allSome argSid as = some ns) (hne : as ≠ [])
    (inner : Bytes) :
    ∃ hd, annotationHeader inner.length as = .ok hd ∧ Wrapped ns inner (hd ++ inner) := by
  obtain ⟨bs, hbs, hs⟩ := annotationSids_spec as ns h
  refine ⟨_, by simp only [annotationHeader, hbs, bind, Except.bind, pure, Except.pure]; rfl, ?_⟩
  have hns : ns ≠ [] := by
    cases as with
    | nil => exact absurd rfl hne
    | cons a as =>
      simp only [allSome] at h
      split at h
      · simp only [Option.some.injEq] at h; rw [← h]; simp
      · cases h
  have hlen := varUInt_spec bs.length
  have := framed_writeLength 14 (by omega) (writeVarUInt bs.length ++ bs ++ inner.map UInt8.toNat)
  have e1 : (writeVarUInt bs.length ++ bs ++ inner.map UInt8.toNat).length
      = (writeVarUInt bs.length).length + bs.length + inner.length := by simp; omega
  rw [e1] at this
  simp only [toBytes_append, toBytes_map_toNat, List.append_assoc] at this
  refine .wrapper ns (toBytes (writeVarUInt bs.length)) (toBytes bs) inner _ hns hs (by simpa using hlen) ?_
  simpa using this

/-- The container header frames exactly the content. -/
theorem containerHeader_spec (ty : CType) (body : Bytes) :
    FramedContainer ty false (containerHeader ty.ty body.length ++ body) body := by
  have key : ∀ tid, tid < 16 → Framed tid (toBytes (writeLength body.length (tid * 16)) ++ body) body := by
    intro tid ht
    have := framed_writeLength tid ht (body.map UInt8.toNat)
    simpa [toBytes_map_toNat] using this
  cases ty with
  | list => exact .list _ _ _ (key 11 (by omega))
  | sexp => exact .sexp _ _ _ (key 12 (by omega))
  | struct =>
    refine .struct _ _ _ ?_
    simp only [containerHeader, CType.ty]
    by_cases h : body.length = 0
    · rw [if_pos h]
      have : body = [] := List.eq_nil_of_length_eq_zero h
      subst this
      exact .short 0xD0 [] (by simp) (by decide)
    · rw [if_neg h]
      exact .long 0xDE _ _ (by decide) (varUInt_spec _)

end Ion.RawWriter
