import Verif.Props.Scalars
import Verif.Events
set_option linter.unusedSimpArgs false
/-!
# Specification: Ion values and the Ion 1.0 binary encoding

This file defines the Ion data model (trees of annotated values) and, as an inductive relation, which byte strings encode
which sequences of values.  It follows the Ion 1.0 binary specification and is independent of the code: every legal
encoding is allowed (over-long length fields, padded integers, ordered structs, NOP padding).

`σ` is the type of symbols: symbol IDs (`Nat`) in the raw encoding, text at the level of the user.
-/
namespace Ion.Spec
open Ion Ion.Fields.Spec Ion.Scalars.Spec

/-- A scalar value (nulls of every type included). -/
inductive Scalar (σ : Type) where
  | null (ty : IonType)
  | bool (b : Bool)
  | int (i : Int)
  | float (bits : UInt64)
  | decimal (d : Dec)
  | timestamp (t : Timestamp)
  | symbol (s : σ)
  | string (t : Text)
  | clob (b : Bytes)
  | blob (b : Bytes)
  deriving DecidableEq

/-- The type of a scalar. -/
def Scalar.ty {σ : Type} : Scalar σ → IonType
  | .null t => t | .bool _ => .bool | .int _ => .int | .float _ => .float | .decimal _ => .decimal
  | .timestamp _ => .timestamp | .symbol _ => .symbol | .string _ => .string | .clob _ => .clob | .blob _ => .blob

/-- Container types. -/
inductive CType where
  | list | sexp | struct
  deriving DecidableEq, Repr

/-- The Ion type of a container. -/
def CType.ty : CType → IonType | .list => .list | .sexp => .sexp | .struct => .struct

/-- A value with its field name (present exactly inside structs) and annotations. -/
inductive Node (σ : Type) where
  | scalar (field : Option σ) (ann : List σ) (v : Scalar σ)
  | cont (field : Option σ) (ann : List σ) (ty : CType) (items : List (Node σ))

/-- The field name. -/
def Node.field {σ : Type} : Node σ → Option σ
  | .scalar f _ _ => f
  | .cont f _ _ _ => f

/-- Type code of the null of a type (`null.int` is also written with code 3). -/
def typeCode : IonType → Nat
  | .null => 0 | .bool => 1 | .int => 2 | .float => 4 | .decimal => 5 | .timestamp => 6 | .symbol => 7 | .string => 8
  | .clob => 9 | .blob => 10 | .list => 11 | .sexp => 12 | .struct => 13

/-- The local offset field of a timestamp: negative zero for an unknown offset, otherwise minutes. -/
def IsOffset (bs : Bytes) (tz : Option Int) : Prop :=
  (tz = none ∧ IsVarInt bs true 0) ∨
  (∃ neg n, IsVarInt bs neg n ∧ ¬ (neg = true ∧ n = 0) ∧ n < 1440 ∧
    tz = some ((if neg then -(n : Int) else n) * 60000000))

/-- The fields after the offset, in UTC, down to a precision. -/
inductive IsTimeFields (u : DateTime) (frac : Dec) : Precision → Bytes → Prop
  | year (y) : IsVarUInt y u.year → IsTimeFields u frac .year y
  | month (y m) : IsVarUInt y u.year → IsVarUInt m u.month → IsTimeFields u frac .month (y ++ m)
  | day (y m d) : IsVarUInt y u.year → IsVarUInt m u.month → IsVarUInt d u.day → IsTimeFields u frac .day (y ++ m ++ d)
  | minute (y m d h mi) : IsVarUInt y u.year → IsVarUInt m u.month → IsVarUInt d u.day → IsVarUInt h u.hour →
      IsVarUInt mi u.minute → IsTimeFields u frac .minute (y ++ m ++ d ++ h ++ mi)
  | second (y m d h mi s f) : IsVarUInt y u.year → IsVarUInt m u.month → IsVarUInt d u.day → IsVarUInt h u.hour →
      IsVarUInt mi u.minute → IsVarUInt s u.second →
      ((f = [] ∧ frac = ⟨false, 0, 0⟩) ∨ (f ≠ [] ∧ IsDecimalBody f frac)) →
      IsTimeFields u frac .second (y ++ m ++ d ++ h ++ mi ++ s ++ f)

/-- A timestamp value in normal form: fields beyond the precision are at their least value, no known offset without a
time, the sub-second attributes agree. -/
structure IsTimeValue (t : Timestamp) (p : Precision) : Prop where
  precision : t.precision = some p
  valid : t.dt.Valid
  cut : t.dt.cut p = t.dt
  dated : p.includesMinute = false → t.dt.tz = none ∨ t.dt.tz = some 0
  digits : t.fracPrecision = min (-t.frac.exp) 6
  unit : t.frac.inUnit = true
  zero : t.frac.coeff = 0 → t.frac.exp ≤ 0
  micro : t.dt.micro = 1000000 * t.frac.coeff / 10 ^ (-t.frac.exp).toNat
  coarse : p ≠ .second → t.frac = ⟨false, 0, 0⟩

/-- A timestamp body: the offset, then the fields of the same instant in UTC. -/
def IsTimestampBody (body : Bytes) (t : Timestamp) : Prop :=
  ∃ p u off fields, IsTimeValue t p ∧ IsOffset off t.dt.tz ∧
    (match t.dt.tz with | none => u = t.dt | some o => t.dt.addMicros (-o) = .ok u) ∧
    IsTimeFields u t.frac p fields ∧ body = off ++ fields

/-- `bs` encodes the (unannotated) scalar. -/
inductive IsScalar : Bytes → Scalar Nat → Prop
  | null (ty : IonType) (h : UInt8) : h.toNat = typeCode ty * 16 + 15 ∨ (ty = .int ∧ h.toNat = 0x3F) →
      IsScalar [h] (.null ty)
  | bool (b : Bool) : IsScalar [if b then 0x11 else 0x10] (.bool b)
  | int (bs body : Bytes) (neg : Bool) : Framed (if neg then 3 else 2) bs body → (neg = true → base256 0 body ≠ 0) →
      IsScalar bs (.int (if neg then -(base256 0 body : Int) else base256 0 body))
  | float0 : IsScalar [0x40] (.float 0)
  | float4 (body : Bytes) : body.length = 4 → IsScalar (0x44 :: body) (.float (UInt64.ofNat (Scalars.widen (base256 0 body))))
  | float8 (body : Bytes) : body.length = 8 → IsScalar (0x48 :: body) (.float (UInt64.ofNat (base256 0 body)))
  | decimal0 : IsScalar [0x50] (.decimal ⟨false, 0, 0⟩)
  | decimal (bs body : Bytes) (d : Dec) : Framed 5 bs body → body ≠ [] → IsDecimalBody body d → IsScalar bs (.decimal d)
  | timestamp (bs body : Bytes) (t : Timestamp) : Framed 6 bs body → IsTimestampBody body t → IsScalar bs (.timestamp t)
  | symbol (bs body : Bytes) : Framed 7 bs body → IsScalar bs (.symbol (base256 0 body))
  | string (bs body : Bytes) (t : Text) : Framed 8 bs body → Utf8.encode t = .ok body → IsScalar bs (.string t)
  | clob (bs body : Bytes) : Framed 9 bs body → IsScalar bs (.clob body)
  | blob (bs body : Bytes) : Framed 10 bs body → IsScalar bs (.blob body)

/-- A sequence of VarUInt symbol IDs. -/
inductive IsSids : Bytes → List Nat → Prop
  | nil : IsSids [] []
  | cons (a bs : Bytes) (n : Nat) (ns : List Nat) : IsVarUInt a n → IsSids bs ns → IsSids (a ++ bs) (n :: ns)

/-- `bs` is `inner` in an annotation wrapper if there are annotations, and `inner` itself otherwise. -/
inductive Wrapped : List Nat → Bytes → Bytes → Prop
  | bare (inner : Bytes) : Wrapped [] inner inner
  | wrapper (ann : List Nat) (len sids inner bs : Bytes) : ann ≠ [] → IsSids sids ann → IsVarUInt len sids.length →
      Framed 14 bs (len ++ sids ++ inner) → Wrapped ann inner bs

/-- Container framing; `ordered` tells whether the contents are in symbol ID order.  An ordered struct has length nibble
1 and a length field. -/
inductive FramedContainer : CType → Bool → Bytes → Bytes → Prop
  | list (bs body : Bytes) (ordered : Bool) : Framed 11 bs body → FramedContainer .list ordered bs body
  | sexp (bs body : Bytes) (ordered : Bool) : Framed 12 bs body → FramedContainer .sexp ordered bs body
  | struct (bs body : Bytes) (ordered : Bool) : Framed 13 bs body → FramedContainer .struct ordered bs body
  | ordered (len body : Bytes) : body ≠ [] → IsVarUInt len body.length →
      FramedContainer .struct true (0xD1 :: (len ++ body)) body

/-- The field name in front of a value: a VarUInt inside a struct, nothing elsewhere. -/
inductive IsField : Bool → Bytes → Option Nat → Prop
  | none : IsField false [] none
  | some (f : Bytes) (n : Nat) : IsVarUInt f n → IsField true f (some n)

/-- What precedes NOP padding: symbol zero inside a struct. -/
def IsPadField (inStruct : Bool) (f : Bytes) : Prop := if inStruct then IsVarUInt f 0 else f = []

/-- `IsItems inStruct bs items`: the bytes `bs` are the contents of a container (or of the top level) that holds exactly
the values `items`. -/
inductive IsItems : Bool → Bytes → List (Node Nat) → Prop
  | nil (s : Bool) : IsItems s [] []
  | pad (s : Bool) (f p body rest : Bytes) (items : List (Node Nat)) : IsPadField s f → Framed 0 p body →
      IsItems s rest items → IsItems s (f ++ p ++ rest) items
  | scalar (s : Bool) (f inner v rest : Bytes) (field : Option Nat) (ann : List Nat) (x : Scalar Nat)
      (items : List (Node Nat)) :
      IsField s f field → IsScalar inner x → Wrapped ann inner v → IsItems s rest items →
      IsItems s (f ++ v ++ rest) (.scalar field ann x :: items)
  | cont (s : Bool) (f body inner v rest : Bytes) (field : Option Nat) (ann : List Nat) (ty : CType)
      (children items : List (Node Nat)) (ordered : Bool) :
      IsField s f field → IsItems (ty = .struct) body children →
      (ordered = true → (children.map fun c => c.field.getD 0).Pairwise (· ≤ ·)) →
      FramedContainer ty ordered inner body → Wrapped ann inner v → IsItems s rest items →
      IsItems s (f ++ v ++ rest) (.cont field ann ty children :: items)

/-- A stream: every segment starts with the Ion version marker. -/
inductive IsStream : Bytes → List (List (Node Nat)) → Prop
  | nil : IsStream [] []
  | segment (body rest : Bytes) (items : List (Node Nat)) (segs : List (List (Node Nat))) :
      IsItems false body items → IsStream rest segs →
      IsStream ([0xE0, 0x01, 0x00, 0xEA] ++ body ++ rest) (items :: segs)

theorem IsItems.append {s : Bool} {a b : Bytes} {xs ys : List (Node Nat)} (ha : IsItems s a xs) (hb : IsItems s b ys) :
    IsItems s (a ++ b) (xs ++ ys) := by
  induction ha with
  | nil s => simpa using hb
  | pad s f p body rest items h1 h2 _ ih =>
    have := IsItems.pad s f p body (rest ++ b) _ h1 h2 (ih hb)
    simpa using this
  | scalar s f inner v rest field ann x items h1 h2 h3 _ ih =>
    have := IsItems.scalar s f inner v (rest ++ b) field ann x _ h1 h2 h3 (ih hb)
    simpa using this
  | cont s f body inner v rest field ann ty ch items o h1 h2 h3 h4 h5 _ _ ih =>
    have := IsItems.cont s f body inner v (rest ++ b) field ann ty ch _ o h1 h2 h3 h4 h5 (ih hb)
    simpa using this

end Ion.Spec

/-! ## From events to values -/
namespace Ion.Spec
open Ion

/-- The symbol ID of a token; text has none. -/
def argSid : SymArg → Option Nat
  | .tok t => t.sid
  | .text _ => none

/-- All, or nothing. -/
def allSome {α β : Type} (f : α → Option β) : List α → Option (List β)
  | [] => some []
  | a :: as => match f a, allSome f as with
    | some b, some bs => some (b :: bs)
    | _, _ => none

/-- The Ion value of a timestamp object: what its precision includes.  A plain `datetime` has microseconds. -/
def timeValue : Scalars.TimeVal → Timestamp
  | .ts t =>
    let p := t.precision.getD .second
    if p = .second then { t with precision := some .second } else ⟨t.dt.cut p, some p, 0, ⟨false, 0, 0⟩⟩
  | .dt d => ⟨d, some .second, 6, ⟨false, d.micro, -6⟩⟩

/-- The Ion scalar of a `SCALAR` event whose Python value fits its Ion type; `none` if it does not fit.  A bool may be given
as an int, by its truth: this is how `IonPyBool`, a subclass of `int`, carries it. -/
def denote {σ : Type} (sym : SymbolToken → Option σ) (ty : IonType) : Option PyVal → Option (Scalar σ)
  | none => some (.null ty)
  | some v => match ty, v with
    | .bool, .bool b => some (.bool b)
    | .bool, .int i => some (.bool (decide (i ≠ 0)))
    | .int, .int i => some (.int i)
    | .float, .float b => some (.float b)
    | .decimal, .decimal d => some (.decimal d)
    | .timestamp, .timestamp t => some (.timestamp (timeValue t))
    | .symbol, .sym t => (sym t).map .symbol
    | .string, .str t => some (.string t)
    | .clob, .bytes b => some (.clob b)
    | .blob, .bytes b => some (.blob b)
    | _, _ => none

/-- Container types among the Ion types. -/
def ctype : IonType → Option CType
  | .list => some .list | .sexp => some .sexp | .struct => some .struct | _ => none

/-- A container that has been started and not ended; `before` holds its elder siblings. -/
structure OpenNode (σ : Type) where
  field : Option σ
  ann : List σ
  ty : CType
  before : List (Node σ)

/-- A document under construction: the values so far in the innermost open container, and the open containers. -/
structure Tree (σ : Type) where
  cur : List (Node σ)
  opens : List (OpenNode σ)

/-- Nothing yet. -/
def Tree.empty {σ : Type} : Tree σ := ⟨[], []⟩

/-- Whether the innermost open container is a struct. -/
def Tree.inStruct {σ : Type} (t : Tree σ) : Bool :=
  match t.opens with
  | o :: _ => o.ty = .struct
  | [] => false

/-- The field name: required inside a struct, ignored elsewhere. -/
def fieldOf {σ : Type} (sym : SymArg → Option σ) (inStruct : Bool) (f : Option SymArg) : Option (Option σ) :=
  if inStruct then (f.bind sym).map some else some none

/-- What an event adds to the document; `none` if it makes no sense there. -/
def Tree.step {σ : Type} (sym : SymArg → Option σ) (symTok : SymbolToken → Option σ) (t : Tree σ) (e : IonEvent) :
    Option (Tree σ) :=
  match e.eventType with
  | .scalar =>
    match fieldOf sym t.inStruct e.fieldName, allSome sym e.annotations, e.ionType, e.value with
    | some f, some a, some ty, .ok v => (denote symTok ty v).map fun x => { t with cur := t.cur ++ [.scalar f a x] }
    | _, _, _, _ => none
  | .containerStart =>
    match fieldOf sym t.inStruct e.fieldName, allSome sym e.annotations, e.ionType.bind ctype with
    | some f, some a, some ty => some ⟨[], ⟨f, a, ty, t.cur⟩ :: t.opens⟩
    | _, _, _ => none
  | .containerEnd =>
    match t.opens with
    | o :: os => some ⟨o.before ++ [.cont o.field o.ann o.ty t.cur], os⟩
    | [] => none
  | _ => none

/-- The document that a sequence of events builds. -/
def Tree.run {σ : Type} (sym : SymArg → Option σ) (symTok : SymbolToken → Option σ) (t : Tree σ) :
    List IonEvent → Option (Tree σ)
  | [] => some t
  | e :: es => (t.step sym symTok e).bind fun t => t.run sym symTok es

/-- The complete values that a sequence of events describes; `none` if it is not well formed. -/
def valuesOf {σ : Type} (sym : SymArg → Option σ) (symTok : SymbolToken → Option σ) (es : List IonEvent) :
    Option (List (Node σ)) :=
  match Tree.empty.run sym symTok es with
  | some ⟨vs, []⟩ => some vs
  | _ => none

/-- Values in terms of symbol IDs. -/
abbrev rawValues : List IonEvent → Option (List (Node Nat)) := valuesOf argSid (·.sid)

end Ion.Spec
