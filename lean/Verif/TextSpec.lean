import Verif.IonSpec
import Verif.TextWriter
import Verif.Base64Spec
set_option linter.unusedSimpArgs false
/-!
# Specification: Ion text

Which texts denote which values, as an inductive relation over the data model of `IonSpec.lean`.  It follows the Ion 1.0
text grammar and is independent of the code.  Left out are comments before operators that start with a slash (which the reader does not
read correctly, see `C38_slash_after_comment`), operators right after
numbers and timestamps (which the reader rejects, see `C38_number_before_operator`), quoted symbols right after long strings, and comments after annotations and field names (which the reader does not always read, see `C38_comment_after_field_name`).

A text is a list of code points.
-/
namespace Ion.TextSpec
open Ion Ion.Spec

/-- A symbol in the text: its text, or its symbol ID (`$10`). -/
inductive TSym where
  | text (t : Text)
  | sid (n : Nat)
  deriving DecidableEq, Repr

/-- Space, tab, newline, vertical tab, form feed, carriage return. -/
def IsSpace (c : Nat) : Prop := c = 32 ∨ (9 ≤ c ∧ c ≤ 13)

/-- Whitespace. -/
def IsBlank (ws : List Nat) : Prop := ∀ c ∈ ws, IsSpace c

/-- A comment: everything from `/*` to the next `*/`, or from `//` to the end of the line. -/
inductive IsComment : List Nat → Prop
  | block (b : List Nat) : ¬ [42, 47] <:+: b → (∀ c ∈ b, c ≤ 0x10FFFF) → IsComment (47 :: 42 :: (b ++ [42, 47]))
  | line (b : List Nat) (nl : Nat) : (∀ c ∈ b, c ≤ 0x10FFFF ∧ c ≠ 10 ∧ c ≠ 13) → nl = 10 ∨ nl = 13 → IsComment (47 :: 47 :: (b ++ [nl]))

/-- Whitespace and comments. -/
inductive IsTrivia : List Nat → Prop
  | nil : IsTrivia []
  | space (c : Nat) (rest : List Nat) : IsSpace c → IsTrivia rest → IsTrivia (c :: rest)
  | comment (cm rest : List Nat) : IsComment cm → IsTrivia rest → IsTrivia (cm ++ rest)

/-- Whitespace and comments right after a value: they do not start with a vertical tab or a form feed (which the reader does
not accept there, see `C38_vertical_tab`). -/
def IsGap (ws : List Nat) : Prop := IsTrivia ws ∧ ∀ c r, ws = c :: r → c ≠ 11 ∧ c ≠ 12

/-- A decimal digit. -/
def Digit (c : Nat) : Prop := 48 ≤ c ∧ c ≤ 57
/-- Decimal digits. -/
def Digits (l : List Nat) : Prop := ∀ c ∈ l, Digit c
/-- The number that digits denote. -/
def decNum (l : List Nat) : Nat := l.foldl (fun a c => 10 * a + (c - 48)) 0

/-- A hexadecimal digit and its value. -/
inductive HexDigit : Nat → Nat → Prop
  | digit (c : Nat) : 48 ≤ c → c ≤ 57 → HexDigit c (c - 48)
  | upper (c : Nat) : 65 ≤ c → c ≤ 70 → HexDigit c (c - 55)
  | lower (c : Nat) : 97 ≤ c → c ≤ 102 → HexDigit c (c - 87)

/-- `w` hexadecimal digits and the number they denote. -/
inductive HexNum : Nat → List Nat → Nat → Prop
  | nil : HexNum 0 [] 0
  | snoc (w : Nat) (ds : List Nat) (n c v : Nat) : HexNum w ds n → HexDigit c v → HexNum (w + 1) (ds ++ [c]) (16 * n + v)

/-- Digits in the base `base`, and the number they denote. -/
inductive DigitsIn (base : Nat) : List Nat → Nat → Prop
  | nil : DigitsIn base [] 0
  | snoc (ds : List Nat) (n c v : Nat) : DigitsIn base ds n → HexDigit c v → v < base → DigitsIn base (ds ++ [c]) (base * n + v)

/-- The first text is the second one, with single underscores between digits. -/
inductive Spelled : List Nat → List Nat → Prop
  | nil : Spelled [] []
  | cons (c : Nat) (t u : List Nat) : Spelled t u → Spelled (c :: t) (c :: u)
  | under (d e v w : Nat) (t u : List Nat) : HexDigit d v → HexDigit e w → Spelled (e :: t) u → Spelled (d :: 95 :: e :: t) (d :: u)

/-- The first text is the second one, with whitespace in it. -/
inductive Spaced : List Nat → List Nat → Prop
  | nil : Spaced [] []
  | cons (c : Nat) (t u : List Nat) : Spaced t u → Spaced (c :: t) (c :: u)
  | space (c : Nat) (t u : List Nat) : IsSpace c → Spaced t u → Spaced (c :: t) u

/-! ## Quoted text -/

/-- Escape sequences of two characters: the character after the backslash, and what it denotes. -/
def escapes : List (Nat × Nat) :=
  [(97, 7), (98, 8), (116, 9), (110, 10), (102, 12), (114, 13), (118, 11), (63, 63), (48, 0), (39, 39), (34, 34), (47, 47), (92, 92)]

/-- A Unicode scalar value. -/
def IsScalarValue (c : Nat) : Prop := c ≤ 0x10FFFF ∧ ¬ (0xD800 ≤ c ∧ c ≤ 0xDFFF)

/-- One character within quotes (`q`) and the code point it denotes.  In a clob (`clob`), only ASCII and `\x`. -/
inductive IsChar (q : Nat) (clob : Bool) : List Nat → Nat → Prop
  | plain (c : Nat) : 0x20 ≤ c ∨ c = 9 ∨ c = 11 ∨ c = 12 → IsScalarValue c → (clob = true → c ≤ 0x7F) → c ≠ q → c ≠ 92 → IsChar q clob [c] c
  | escape (e v : Nat) : (e, v) ∈ escapes → IsChar q clob [92, e] v
  | hex2 (ds : List Nat) (n : Nat) : HexNum 2 ds n → IsChar q clob (92 :: 120 :: ds) n
  | hex4 (ds : List Nat) (n : Nat) : clob = false → HexNum 4 ds n → IsScalarValue n → IsChar q clob (92 :: 117 :: ds) n
  | hex8 (ds : List Nat) (n : Nat) : clob = false → HexNum 8 ds n → IsScalarValue n → IsChar q clob (92 :: 85 :: ds) n
  | pair (hs ls : List Nat) (h l : Nat) : clob = false → HexNum 4 hs h → HexNum 4 ls l → 0xD800 ≤ h → h ≤ 0xDBFF → 0xDC00 ≤ l → l ≤ 0xDFFF →
      IsChar q clob (92 :: 117 :: (hs ++ 92 :: 117 :: ls)) (0x10000 + (h - 0xD800) * 0x400 + (l - 0xDC00))

/-- A line break: newline, carriage return, or both.  A carriage return with a newline after it is one line break. -/
def IsBreak (nl rest : List Nat) : Prop := nl = [10] ∨ nl = [13, 10] ∨ (nl = [13] ∧ ∀ r, rest ≠ 10 :: r)

/-- Text within quotes.  A backslash before a line break removes it. -/
inductive IsChars (q : Nat) (clob : Bool) : List Nat → Text → Prop
  | nil : IsChars q clob [] []
  | cons (bs rest : List Nat) (c : Nat) (t : Text) : IsChar q clob bs c → IsChars q clob rest t → IsChars q clob (bs ++ rest) (c :: t)
  | continued (nl rest : List Nat) (t : Text) : IsBreak nl rest → IsChars q clob rest t → IsChars q clob (92 :: (nl ++ rest)) t

/-- Text within triple quotes: line breaks may stand in it, and one or two quotes that are not at the end. -/
inductive IsLongChars (clob : Bool) : List Nat → Text → Prop
  | nil : IsLongChars clob [] []
  | char (n : Nat) (bs rest : List Nat) (c : Nat) (t : Text) : n ≤ 2 → IsChar 39 clob bs c → IsLongChars clob rest t →
      IsLongChars clob (List.replicate n 39 ++ (bs ++ rest)) (List.replicate n 39 ++ c :: t)
  | newline (n : Nat) (nl rest : List Nat) (t : Text) : n ≤ 2 → IsBreak nl rest → IsLongChars clob rest t →
      IsLongChars clob (List.replicate n 39 ++ (nl ++ rest)) (List.replicate n 39 ++ 10 :: t)
  | continued (n : Nat) (nl rest : List Nat) (t : Text) : n ≤ 2 → IsBreak nl rest → IsLongChars clob rest t →
      IsLongChars clob (List.replicate n 39 ++ 92 :: (nl ++ rest)) (List.replicate n 39 ++ t)

/-- Three single quotes. -/
def quotes3 : List Nat := [39, 39, 39]

/-- A long string: pieces in triple quotes, with whitespace and (in a clob: without) comments between them. -/
inductive IsLong (clob : Bool) : List Nat → Text → Prop
  | one (bs : List Nat) (t : Text) : IsLongChars clob bs t → IsLong clob (quotes3 ++ (bs ++ quotes3)) t
  | more (bs g rest : List Nat) (t u : Text) : IsLongChars clob bs t → IsTrivia g → (clob = true → IsBlank g) → IsLong clob rest u →
      IsLong clob (quotes3 ++ (bs ++ (quotes3 ++ (g ++ rest)))) (t ++ u)

/-! ## Symbols -/

/-- A letter, `$` or `_`. -/
def IdentStart (c : Nat) : Prop := (97 ≤ c ∧ c ≤ 122) ∨ (65 ≤ c ∧ c ≤ 90) ∨ c = 36 ∨ c = 95

/-- An identifier: letters, digits, `$` and `_`, not starting with a digit. -/
def IsIdent : Text → Prop
  | [] => False
  | c :: cs => IdentStart c ∧ ∀ d ∈ cs, IdentStart d ∨ Digit d

/-- Identifiers that are not symbols. -/
def reserved : List Text := [asc ['n','u','l','l'], asc ['t','r','u','e'], asc ['f','a','l','s','e'], asc ['n','a','n']]

/-- `$` and digits: a symbol ID. -/
def IsSidText (t : Text) : Prop := ∃ ds, t = 36 :: ds ∧ ds ≠ [] ∧ Digits ds

/-- A symbol. -/
inductive IsSym : List Nat → TSym → Prop
  | ident (t : Text) : IsIdent t → t ∉ reserved → ¬ IsSidText t → IsSym t (.text t)
  | sid (ds : List Nat) : ds ≠ [] → Digits ds → IsSym (36 :: ds) (.sid (decNum ds))
  | quoted (bs : List Nat) (t : Text) : IsChars 39 false bs t → IsSym (39 :: (bs ++ [39])) (.text t)

/-- `$ion_` with a version: at the top level, not a symbol but a version marker. -/
def IsMarkerText (t : Text) : Prop :=
  ∃ a b, t = asc ['$','i','o','n','_'] ++ (a ++ 95 :: b) ∧ Digits a ∧ Digits b ∧ b ≠ []

/-! ## Scalars -/

/-- Digits without a leading zero. -/
def IsUInt (ds : List Nat) : Prop := ds = [48] ∨ ∃ d r, ds = d :: r ∧ 49 ≤ d ∧ d ≤ 57 ∧ Digits r

/-- An optional minus sign. -/
def signText (neg : Bool) : List Nat := if neg then [45] else []

/-- An exponent: an optional sign and digits. -/
inductive IsExponent : List Nat → Int → Prop
  | none (ds : List Nat) : ds ≠ [] → Digits ds → IsExponent ds (decNum ds)
  | plus (ds : List Nat) : ds ≠ [] → Digits ds → IsExponent (43 :: ds) (decNum ds)
  | minus (ds : List Nat) : ds ≠ [] → Digits ds → IsExponent (45 :: ds) (-(decNum ds : Int))

/-- A coefficient: an integer with an optional fraction; all digits, and the number of digits after the point. -/
inductive IsCoefficient : List Nat → List Nat → Nat → Prop
  | whole (ds : List Nat) : IsUInt ds → IsCoefficient ds ds 0
  | point (ds fs : List Nat) : IsUInt ds → Digits fs → IsCoefficient (ds ++ 46 :: fs) (ds ++ fs) fs.length

/-- The local offset of a timestamp: `-00:00` if unknown, `Z`, or hours and minutes with a sign. -/
inductive IsOffsetText : List Nat → Option Int → Prop
  | unknown : IsOffsetText (asc ['-','0','0',':','0','0']) none
  | utc : IsOffsetText [90] (some 0)
  | plus (h m : Nat) : h < 24 → m < 60 → IsOffsetText (43 :: (decFixed 2 h ++ 58 :: decFixed 2 m)) (some ((60 * h + m : Nat) * 60000000))
  | minus (h m : Nat) : h < 24 → m < 60 → ¬ (h = 0 ∧ m = 0) →
      IsOffsetText (45 :: (decFixed 2 h ++ 58 :: decFixed 2 m)) (some (-((60 * h + m : Nat) * 60000000 : Int)))

/-- The fraction of the seconds: nothing, or a point and digits.  At most 28 significant digits and a million digits in all:
the reader rounds longer fractions. -/
inductive IsFractionText : List Nat → Dec → Prop
  | none : IsFractionText [] ⟨false, 0, 0⟩
  | digits (fs : List Nat) : fs ≠ [] → Digits fs → decNum fs < 10 ^ 28 → fs.length < 1000000 → IsFractionText (46 :: fs) ⟨false, decNum fs, -(fs.length : Int)⟩

/-- A timestamp.  Without a time, the offset is unknown. -/
inductive IsTimeText (t : Timestamp) : List Nat → Prop
  | year : IsTimeValue t .year → t.dt.tz = none → IsTimeText t (decFixed 4 t.dt.year ++ [84])
  | month : IsTimeValue t .month → t.dt.tz = none → IsTimeText t (decFixed 4 t.dt.year ++ 45 :: decFixed 2 t.dt.month ++ [84])
  | day (suf : List Nat) : IsTimeValue t .day → t.dt.tz = none → suf = [] ∨ suf = [84] →
      IsTimeText t (decFixed 4 t.dt.year ++ 45 :: decFixed 2 t.dt.month ++ 45 :: decFixed 2 t.dt.day ++ suf)
  | minute (off : List Nat) : IsTimeValue t .minute → IsOffsetText off t.dt.tz →
      IsTimeText t (decFixed 4 t.dt.year ++ 45 :: decFixed 2 t.dt.month ++ 45 :: decFixed 2 t.dt.day ++ 84 :: decFixed 2 t.dt.hour ++
        58 :: decFixed 2 t.dt.minute ++ off)
  | second (frac off : List Nat) : IsTimeValue t .second → IsFractionText frac t.frac → IsOffsetText off t.dt.tz →
      IsTimeText t (decFixed 4 t.dt.year ++ 45 :: decFixed 2 t.dt.month ++ 45 :: decFixed 2 t.dt.day ++ 84 :: decFixed 2 t.dt.hour ++
        58 :: decFixed 2 t.dt.minute ++ 58 :: decFixed 2 t.dt.second ++ frac ++ off)

/-- The name of a type in a typed null. -/
def typeName : IonType → List Nat
  | .null => asc ['n','u','l','l'] | .bool => asc ['b','o','o','l'] | .int => asc ['i','n','t'] | .float => asc ['f','l','o','a','t']
  | .decimal => asc ['d','e','c','i','m','a','l'] | .timestamp => asc ['t','i','m','e','s','t','a','m','p']
  | .symbol => asc ['s','y','m','b','o','l'] | .string => asc ['s','t','r','i','n','g'] | .clob => asc ['c','l','o','b']
  | .blob => asc ['b','l','o','b'] | .list => asc ['l','i','s','t'] | .sexp => asc ['s','e','x','p'] | .struct => asc ['s','t','r','u','c','t']

/-- A scalar without annotations.  What a floating-point text denotes is the parameter `F`. -/
inductive IsScalarText (F : FloatText) : List Nat → Scalar TSym → Prop
  | null : IsScalarText F (asc ['n','u','l','l']) (.null .null)
  | typedNull (ty : IonType) : IsScalarText F (asc ['n','u','l','l','.'] ++ typeName ty) (.null ty)
  | true_ : IsScalarText F (asc ['t','r','u','e']) (.bool true)
  | false_ : IsScalarText F (asc ['f','a','l','s','e']) (.bool false)
  | int (neg : Bool) (t ds : List Nat) : IsUInt ds → Spelled t ds → IsScalarText F (signText neg ++ t) (.int (if neg then -(decNum ds : Int) else decNum ds))
  | radix (neg : Bool) (base b : Nat) (t ds : List Nat) (n : Nat) : base = 2 ∧ (b = 98 ∨ b = 66) ∨ base = 16 ∧ (b = 120 ∨ b = 88) → ds ≠ [] →
      DigitsIn base ds n → Spelled t ds → IsScalarText F (signText neg ++ 48 :: b :: t) (.int (if neg then -(n : Int) else n))
  | float (neg : Bool) (t co all : List Nat) (n : Nat) (e : Nat) (ex : List Nat) (i : Int) (bits : UInt64) : IsCoefficient co all n → Spelled t co →
      e = 101 ∨ e = 69 → IsExponent ex i → F.parse (signText neg ++ co ++ e :: ex) = .ok bits →
      IsScalarText F (signText neg ++ t ++ e :: ex) (.float bits)
  | nan : IsScalarText F (asc ['n','a','n']) (.float 0x7FF8000000000000)
  | posInf : IsScalarText F (asc ['+','i','n','f']) (.float 0x7FF0000000000000)
  | negInf : IsScalarText F (asc ['-','i','n','f']) (.float 0xFFF0000000000000)
  | decimal (neg : Bool) (t ds fs : List Nat) : IsUInt ds → Digits fs → Spelled t (ds ++ 46 :: fs) →
      IsScalarText F (signText neg ++ t) (.decimal ⟨neg, decNum (ds ++ fs), -(fs.length : Int)⟩)
  | decimalExp (neg : Bool) (t co all : List Nat) (n d : Nat) (ex : List Nat) (i : Int) : IsCoefficient co all n → Spelled t co → d = 100 ∨ d = 68 →
      IsExponent ex i → IsScalarText F (signText neg ++ t ++ d :: ex) (.decimal ⟨neg, decNum all, i - n⟩)
  | timestamp (t : Timestamp) (bs : List Nat) : IsTimeText t bs → IsScalarText F bs (.timestamp t)
  | symbol (bs : List Nat) (s : TSym) : IsSym bs s → IsScalarText F bs (.symbol s)
  | string (bs : List Nat) (t : Text) : IsChars 34 false bs t → IsScalarText F (34 :: (bs ++ [34])) (.string t)
  | clob (w1 bs w2 : List Nat) (t : Text) (b : Bytes) : IsBlank w1 → IsChars 34 true bs t → IsBlank w2 → t = b.map UInt8.toNat →
      IsScalarText F (123 :: 123 :: (w1 ++ 34 :: (bs ++ 34 :: (w2 ++ [125, 125])))) (.clob b)
  | longString (bs : List Nat) (t : Text) : IsLong false bs t → IsScalarText F bs (.string t)
  | longClob (w1 bs w2 : List Nat) (t : Text) (b : Bytes) : IsBlank w1 → IsLong true bs t → IsBlank w2 → t = b.map UInt8.toNat →
      IsScalarText F (123 :: 123 :: (w1 ++ (bs ++ (w2 ++ [125, 125])))) (.clob b)
  | blob (t : List Nat) (b : Bytes) : Spaced t (Base64.encode (b.map UInt8.toNat)) → IsScalarText F (123 :: 123 :: (t ++ [125, 125])) (.blob b)

/-! ## Values -/

/-- The characters of operators: ``!#%&*+-./;<=>?@^`|~``. -/
def OpChar (c : Nat) : Prop := c ∈ asc ['!','#','%','&','*','+','-','.','/',';','<','=','>','?','@','^','`','|','~']

/-- An operator: a symbol of operator characters.  It has no comment in it. -/
def IsOperator (t : Text) : Prop := t ≠ [] ∧ (∀ c ∈ t, OpChar c) ∧ ¬ [47, 47] <:+: t ∧ ¬ [47, 42] <:+: t

/-- Where a value stands: at the top level or in a container. -/
abbrev Place := Option CType

/-- Annotations.  After `''`, the reader does not always read a comment. -/
inductive IsAnns : List Nat → List TSym → Prop
  | nil : IsAnns [] []
  | cons (s g w rest : List Nat) (a : TSym) (as : List TSym) : IsSym s a → IsGap g → (s = [39, 39] → IsBlank g) → IsBlank w → IsAnns rest as →
      IsAnns (s ++ (g ++ 58 :: 58 :: (w ++ rest))) (a :: as)

/-- A field name: a symbol or a string. -/
inductive IsFieldName : List Nat → TSym → Prop
  | sym (s : List Nat) (a : TSym) : IsSym s a → IsFieldName s a
  | string (bs : List Nat) (t : Text) : IsChars 34 false bs t → IsFieldName (34 :: (bs ++ [34])) (.text t)
  | long (bs : List Nat) (t : Text) : IsLong false bs t → IsFieldName bs (.text t)

/-- The field name of a value in a struct. -/
inductive IsName : Place → List Nat → Option TSym → Prop
  | none (p : Place) : p ≠ some .struct → IsName p [] none
  | some (s g w : List Nat) (a : TSym) : IsFieldName s a → IsGap g → (s = [39, 39] → IsBlank g) → IsBlank w → IsName (some .struct) (s ++ (g ++ 58 :: w)) (some a)

/-- The brackets. -/
def opening : CType → Nat | .list => 91 | .sexp => 40 | .struct => 123
/-- The brackets. -/
def closing : CType → Nat | .list => 93 | .sexp => 41 | .struct => 125

/-- The text of a value that ends with a bracket, a quote or an operator character. -/
def Closed (v : List Nat) : Node TSym → Prop
  | .cont _ _ _ _ => True
  | .scalar _ _ (.string _) => True
  | .scalar _ _ (.clob _) => True
  | .scalar _ _ (.blob _) => True
  | .scalar _ _ (.symbol _) => [39] <:+ v ∨ ∃ c, OpChar c ∧ [c] <:+ v
  | .scalar _ _ _ => False

/-- The text begins with a bracket or a quote. -/
def Opens (rest : List Nat) : Prop := ∃ c r, rest = c :: r ∧ c ∈ [91, 40, 123, 34, 39]

/-- An operator with this text. -/
def OperatorOf (n : Node TSym) (v : List Nat) (t : Text) : Prop := (∃ f as, n = .scalar f as (.symbol (.text t))) ∧ ∃ c, OpChar c ∧ [c] <:+ v

/-- The symbol without text. -/
def IsEmptySymbol : Node TSym → Prop
  | .scalar _ _ (.symbol (.text [])) => True
  | _ => False

/-- A long string. -/
def IsLongString (v : List Nat) : Node TSym → Prop
  | .scalar _ _ (.string _) => [39] <:+ v
  | _ => False

/-- Whitespace and comments `g` between the text `v` of the value `n` and what follows it.  There need not be any if the value
ends, or what follows begins, with a bracket or a quote, or if the value is an operator.  After `''`, there is neither a quote nor (since the reader does not
always read it) a comment.  Before an operator that begins with a slash, there is no comment and (since the reader
does not always read it, see `C53_return_after_slash`) not `''`.  After a long string, there is no quoted symbol.  After an
operator, there is no comment and, unless there is whitespace in between, nothing that would belong to the same token. -/
structure IsApart (n : Node TSym) (v g rest : List Nat) : Prop where
  gap : IsGap g
  apart : g = [] → rest = [] ∨ Closed v n ∨ Opens rest
  empty : IsEmptySymbol n → IsBlank g ∧ (g = [] → ∀ r, rest ≠ 39 :: r)
  long : IsLongString v n → ∀ r, rest ≠ 39 :: r
  slash : ∀ r, rest = 47 :: r → IsBlank g ∧ ¬ IsEmptySymbol n
  operator : ∀ t, OperatorOf n v t → (∀ r, g ≠ 47 :: r) ∧
    (g = [] → ∀ c r, rest = c :: r → ¬ OpChar c ∧ (t = [43] ∨ t = [45] → c ≠ 105) ∧ (t = [45] → ¬ Digit c))

/-- A keyword, an infinity or an unquoted symbol: the text ends with a letter, a digit, `$` or `_`, and is not that of a number. -/
def IsWord (v : List Nat) : Node TSym → Prop
  | .scalar _ _ (.null _) => True
  | .scalar _ _ (.bool _) => True
  | .scalar _ _ (.float _) => ∃ c, IdentStart c ∧ [c] <:+ v
  | .scalar _ _ (.symbol _) => ∃ c, (IdentStart c ∨ Digit c) ∧ [c] <:+ v
  | _ => False

/-- In an s-expression an operator character may directly follow a word (`(a+b)`, `(a-1)`).  After `null`, a period would belong to the
same token. -/
structure IsJoined (n : Node TSym) (v rest : List Nat) : Prop where
  word : IsWord v n
  operator : ∃ c r, rest = c :: r ∧ OpChar c
  null : ∀ f as r, n = .scalar f as (.null .null) → rest ≠ 46 :: r

/-- What separates a value from the rest: in lists and structs a comma (which may also follow the last value), in
s-expressions whitespace or nothing.  Whitespace and comments may stand before and after the comma. -/
inductive IsSep (n : Node TSym) (v : List Nat) : CType → List Nat → List Nat → Prop
  | comma (ty : CType) (g w rest : List Nat) : ty ≠ .sexp → IsApart n v g [] → IsTrivia w → IsSep n v ty (g ++ 44 :: w) rest
  | last (ty : CType) (g : List Nat) : IsApart n v g [] → IsSep n v ty g []
  | sexp (g rest : List Nat) : IsApart n v g rest → IsSep n v .sexp g rest
  | joined (rest : List Nat) : IsJoined n v rest → IsSep n v .sexp [] rest

mutual
/-- A value with field name and annotations.  Operators stand in s-expressions only. -/
inductive IsValue (F : FloatText) : Place → List Nat → Node TSym → Prop
  | scalar (p : Place) (name anns bs : List Nat) (f : Option TSym) (as : List TSym) (v : Scalar TSym) :
      IsName p name f → IsAnns anns as → IsScalarText F bs v → (p = none → as = [] → ¬ IsMarkerText bs) →
      IsValue F p (name ++ (anns ++ bs)) (.scalar f as v)
  | cont (p : Place) (name anns w body : List Nat) (f : Option TSym) (as : List TSym) (ty : CType) (items : List (Node TSym)) :
      IsName p name f → IsAnns anns as → IsTrivia w → (∀ r, body = 47 :: r → IsBlank w) → IsItems F ty body items →
      IsValue F p (name ++ (anns ++ opening ty :: (w ++ (body ++ [closing ty])))) (.cont f as ty items)
  | operator (anns t : List Nat) (as : List TSym) : IsAnns anns as → IsOperator t → IsValue F (some .sexp) (anns ++ t) (.scalar none as (.symbol (.text t)))
/-- The values of a container. -/
inductive IsItems (F : FloatText) : CType → List Nat → List (Node TSym) → Prop
  | nil (ty : CType) : IsItems F ty [] []
  | cons (ty : CType) (v sep rest : List Nat) (n : Node TSym) (items : List (Node TSym)) : IsValue F (some ty) v n → IsSep n v ty sep rest →
      IsItems F ty rest items → IsItems F ty (v ++ (sep ++ rest)) (n :: items)
end

/-- A document after its leading whitespace and comments: values and version markers (`none`). -/
inductive IsDoc (F : FloatText) : List Nat → List (Option (Node TSym)) → Prop
  | nil : IsDoc F [] []
  | marker (g rest : List Nat) (items : List (Option (Node TSym))) : IsGap g → (g = [] → rest = [] ∨ Opens rest) → IsDoc F rest items →
      IsDoc F (asc ['$','i','o','n','_','1','_','0'] ++ (g ++ rest)) (none :: items)
  | value (v g rest : List Nat) (n : Node TSym) (items : List (Option (Node TSym))) : IsValue F none v n → IsApart n v g rest →
      IsDoc F rest items → IsDoc F (v ++ (g ++ rest)) (some n :: items)

/-! ## Events -/

/-- The token of a symbol. -/
def TSym.token : TSym → SymbolToken
  | .text t => ⟨some t, none, none⟩
  | .sid n => ⟨none, some n, none⟩

/-- The Python value of a scalar. -/
def scalarValue : Scalar TSym → Option PyVal
  | .null _ => none
  | .bool b => some (.bool b)
  | .int i => some (.int i)
  | .float bits => some (.float bits)
  | .decimal d => some (.decimal d)
  | .timestamp t => some (.timestamp (.ts t))
  | .symbol s => some (.sym s.token)
  | .string t => some (.str t)
  | .clob b => some (.bytes b)
  | .blob b => some (.bytes b)

mutual
/-- The events of a value. -/
def eventsOf (depth : Nat) : Node TSym → List IonEvent
  | .scalar f as v => [{ eventType := .scalar, ionType := some v.ty, value := .ok (scalarValue v), fieldName := f.map fun s => .tok s.token, annotations := as.map fun s => .tok s.token, depth := some depth }]
  | .cont f as ty items =>
    { eventType := .containerStart, ionType := some ty.ty, fieldName := f.map fun s => .tok s.token, annotations := as.map fun s => .tok s.token, depth := some depth } ::
      (eventsOfAll (depth + 1) items ++ [{ eventType := .containerEnd, ionType := some ty.ty, depth := some depth }])
/-- The events of a list of values. -/
def eventsOfAll (depth : Nat) : List (Node TSym) → List IonEvent
  | [] => []
  | n :: ns => eventsOf depth n ++ eventsOfAll depth ns
end

/-- The events of a document. -/
def docEvents (items : List (Option (Node TSym))) : List IonEvent :=
  items.flatMap fun i => match i with
    | none => [ION_VERSION_MARKER_EVENT]
    | some n => eventsOf 0 n

end Ion.TextSpec
