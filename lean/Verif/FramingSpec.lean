import Verif.IonExtent
set_option linter.unusedSimpArgs false
/-!
# Specification: the framing of the Ion 1.0 binary encoding

Which byte strings have the shape of a binary Ion document: every value starts with a legal type octet and has the length
that its header announces, containers are exactly filled by their contents, an annotation wrapper is exactly filled by its
annotations and one value that is not itself annotated, version markers stand only at the top level, and NOP padding inside
a struct has the field name zero.  The *bodies* of scalars are not looked at: the reader parses them only when the user
reads the value.

Two productions (`annotatedPad`, `annotatedMarker`) are not Ion: the reader accepts them (see `C42_annotated_padding`).
-/
namespace Ion.Spec
open Ion Ion.Fields.Spec Ion.Scalars.Spec

/-- An unannotated scalar, whatever its body says. -/
inductive IsPlain : Bytes → Prop
  /-- the typed nulls -/
  | null (h : UInt8) : h.toNat % 16 = 15 → h.toNat ≤ 0xDF → IsPlain [h]
  | bool (b : Bool) : IsPlain [if b then 0x11 else 0x10]
  | float0 : IsPlain [0x40]
  | float4 (body : Bytes) : body.length = 4 → IsPlain (0x44 :: body)
  | float8 (body : Bytes) : body.length = 8 → IsPlain (0x48 :: body)
  /-- int, negative int, decimal, timestamp, symbol, string, clob, blob; `30` and `60` are illegal -/
  | body (tid : Nat) (bs body : Bytes) : tid = 2 ∨ tid = 3 ∨ tid = 5 ∨ tid = 6 ∨ tid = 7 ∨ tid = 8 ∨ tid = 9 ∨ tid = 10 →
      Framed tid bs body → bs ≠ [0x30] → bs ≠ [0x60] → IsPlain bs

/-- The header of an annotation wrapper that announces `n` octets. -/
inductive IsWrapperHeader (n : Nat) : Bytes → Prop
  | short (h : UInt8) : n < 14 → h.toNat = 0xE0 + n → 3 ≤ n → IsWrapperHeader n [h]
  | long (h : UInt8) (len : Bytes) : h.toNat = 0xEE → IsVarUInt len n → IsWrapperHeader n (h :: len)

/-- What precedes the value in a wrapper: the header, the length of the annotations, the annotations. -/
def IsWrapperStart (bs : Bytes) : Prop :=
  ∃ n head len sids ann, IsWrapperHeader n head ∧ IsVarUInt len sids.length ∧ IsSids sids ann ∧ ann ≠ [] ∧
    bs = head ++ (len ++ sids)

/-- The contents of a container (`s`: of a struct). -/
inductive WellFramed : Bool → Bytes → Prop
  | nil (s : Bool) : WellFramed s []
  | pad (s : Bool) (f p body rest : Bytes) : IsPadField s f → Framed 0 p body → WellFramed s rest →
      WellFramed s (f ++ (p ++ rest))
  | scalar (s : Bool) (f inner v rest : Bytes) (field : Option Nat) (ann : List Nat) :
      IsField s f field → IsPlain inner → Wrapped ann inner v → WellFramed s rest → WellFramed s (f ++ (v ++ rest))
  | cont (s : Bool) (f body inner v rest : Bytes) (field : Option Nat) (ann : List Nat) (ty : CType) :
      IsField s f field → WellFramed (ty = .struct) body → FramedContainer ty true inner body → Wrapped ann inner v →
      WellFramed s rest → WellFramed s (f ++ (v ++ rest))
  /-- not Ion: padding as the "value" of a wrapper, whose announced length is then not looked at -/
  | annotatedPad (s : Bool) (f w p body rest : Bytes) : IsPadField s f → IsWrapperStart w → Framed 0 p body →
      WellFramed s rest → WellFramed s (f ++ (w ++ (p ++ rest)))

/-- The top level after the first version marker. -/
inductive WellFramedTop : Bytes → Prop
  | nil : WellFramedTop []
  | items (body rest : Bytes) : WellFramed false body → WellFramedTop rest → WellFramedTop (body ++ rest)
  | marker (rest : Bytes) : WellFramedTop rest → WellFramedTop ([0xE0, 0x01, 0x00, 0xEA] ++ rest)
  /-- not Ion: a version marker as the "value" of a wrapper -/
  | annotatedMarker (w rest : Bytes) : IsWrapperStart w → WellFramedTop rest →
      WellFramedTop (w ++ ([0xE0, 0x01, 0x00, 0xEA] ++ rest))

/-- A document: empty, or it starts with the version marker. -/
def WellFramedDoc (doc : Bytes) : Prop := doc = [] ∨ ∃ rest, doc = [0xE0, 0x01, 0x00, 0xEA] ++ rest ∧ WellFramedTop rest

theorem WellFramed.append {s : Bool} {a b : Bytes} (ha : WellFramed s a) (hb : WellFramed s b) : WellFramed s (a ++ b) := by
  induction ha with
  | nil s => simpa using hb
  | pad s f p body rest h1 h2 _ ih => simpa using WellFramed.pad s f p body (rest ++ b) h1 h2 (ih hb)
  | scalar s f inner v rest field ann h1 h2 h3 _ ih => simpa using WellFramed.scalar s f inner v (rest ++ b) field ann h1 h2 h3 (ih hb)
  | cont s f body inner v rest field ann ty h1 h2 h3 h4 _ _ ih =>
    simpa using WellFramed.cont s f body inner v (rest ++ b) field ann ty h1 h2 h3 h4 (ih hb)
  | annotatedPad s f w p body rest h1 h2 h3 _ ih => simpa using WellFramed.annotatedPad s f w p body (rest ++ b) h1 h2 h3 (ih hb)

theorem WellFramedTop.append {a b : Bytes} (ha : WellFramedTop a) (hb : WellFramedTop b) : WellFramedTop (a ++ b) := by
  induction ha with
  | nil => simpa using hb
  | items body rest h _ ih => simpa using WellFramedTop.items body (rest ++ b) h ih
  | marker rest _ ih => simpa using WellFramedTop.marker (rest ++ b) ih
  | annotatedMarker w rest h _ ih => simpa using WellFramedTop.annotatedMarker w (rest ++ b) h ih

/-! ## What can be wrong -/

/-- The type octets of Ion 1.0, without the version marker. -/
def LegalOctet (h : UInt8) : Prop :=
  let t := h.toNat / 16
  let n := h.toNat % 16
  t = 0 ∨ (t = 1 ∧ (n = 0 ∨ n = 1 ∨ n = 15)) ∨ t = 2 ∨ (t = 3 ∧ n ≠ 0) ∨ (t = 4 ∧ (n = 0 ∨ n = 4 ∨ n = 8 ∨ n = 15)) ∨ t = 5 ∨
  (t = 6 ∧ n ≠ 0) ∨ (7 ≤ t ∧ t ≤ 13) ∨ (t = 14 ∧ 3 ≤ n ∧ n ≤ 14)

/-- Contents of a container (`top`: of the top level, `s`: of a struct) with a defect.  `extent` is the number of octets that
the first octets of a value announce. -/
inductive Defect : Bool → Bool → Bytes → Prop
  /-- an illegal type octet -/
  | octet (top s : Bool) (f : Bytes) (field : Option Nat) (h : UInt8) (r : Bytes) : IsField s f field → ¬ LegalOctet h → h ≠ 0xE0 →
      Defect top s (f ++ h :: r)
  /-- a version marker below the top level -/
  | marker (s : Bool) (f : Bytes) (field : Option Nat) (r : Bytes) : IsField s f field → Defect false s (f ++ 0xE0 :: r)
  /-- octets at the top level that look like the beginning of a version marker -/
  | badMarker (r : Bytes) : (∀ r', r ≠ [0x01, 0x00, 0xEA] ++ r') → Defect true false (0xE0 :: r)
  /-- a value that announces more octets than its container has left -/
  | overrun (top s : Bool) (f : Bytes) (field : Option Nat) (h : UInt8) (r : Bytes) (k : Nat) : IsField s f field → h.toNat < 0xE0 →
      extent (h :: r) = some k → (h :: r).length < k → Defect top s (f ++ h :: r)
  /-- an annotated value inside an annotation wrapper -/
  | nested (top s : Bool) (f : Bytes) (field : Option Nat) (w : Bytes) (h : UInt8) (r : Bytes) : IsField s f field → IsWrapperStart w →
      h.toNat / 16 = 14 → h ≠ 0xE0 → Defect top s (f ++ (w ++ h :: r))
  /-- a wrapper whose length is not that of its annotations and its value -/
  | mismatch (top s : Bool) (f : Bytes) (field : Option Nat) (n : Nat) (head len sids : Bytes) (ann : List Nat) (h : UInt8) (r : Bytes) (k : Nat) :
      IsField s f field → IsWrapperHeader n head → IsVarUInt len sids.length → IsSids sids ann → ann ≠ [] →
      0x0F ≤ h.toNat → h.toNat < 0xE0 → extent (h :: r) = some k → len.length + sids.length + k ≠ n →
      Defect top s (f ++ (head ++ (len ++ (sids ++ h :: r))))
  /-- padding with a field name other than symbol zero -/
  | namedPad (f : Bytes) (n : Nat) (h : UInt8) (r : Bytes) : IsVarUInt f n → n ≠ 0 → h.toNat < 0x0F → Defect false true (f ++ h :: r)
  /-- a defect after correct values -/
  | later (top s : Bool) (x rest : Bytes) (items : List (Node Nat)) : IsItems s x items → Defect top s rest → Defect top s (x ++ rest)
  /-- a defect after a version marker at the top level -/
  | afterMarker (rest : Bytes) : Defect true false rest → Defect true false ([0xE0, 0x01, 0x00, 0xEA] ++ rest)
  /-- an ordered struct too short for a field -/
  | shortOrdered (top s : Bool) (f len : Bytes) (field : Option Nat) (n : Nat) (r : Bytes) : IsField s f field → IsVarUInt len n → n < 2 →
      Defect top s (f ++ 0xD1 :: (len ++ r))
  /-- a defect inside a container (`D1` does not announce a struct of one octet: it starts an ordered struct) -/
  | inside (top s : Bool) (f body inner v rest : Bytes) (field : Option Nat) (ann : List Nat) (ty : CType) (ordered : Bool) :
      IsField s f field → Defect false (ty = .struct) body → FramedContainer ty ordered inner body → (ty = .struct → body.length ≠ 1) →
      Wrapped ann inner v → Defect top s (f ++ (v ++ rest))

end Ion.Spec
