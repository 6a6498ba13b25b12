import Verif.TextPrefixSpec
set_option linter.unusedSimpArgs false
/-!
# Specification: wrong texts

Beginnings of texts that are not the beginning of any Ion text, because of what stands at one place.  Like `TextSpec.lean`,
this is independent of the code.
-/
namespace Ion.TextSpec
open Ion Ion.Spec

/-- The text ends here, or goes on with a character of which `p` does not hold. -/
def NoNext (p : Nat → Prop) (r : List Nat) : Prop := ∀ c r', r = c :: r' → ¬ p c

/-! ## Quoted text -/

/-- After a backslash: `\x` with two, `\u` with four, `\U` with eight hexadecimal digits.  Only the first in clobs. -/
def IsHexEscape (clob : Bool) (e w : Nat) : Prop := (e = 120 ∧ w = 2) ∨ (clob = false ∧ ((e = 117 ∧ w = 4) ∨ (e = 85 ∧ w = 8)))

/-- A character that may not follow a backslash. -/
def IsBadEscape (clob : Bool) (e : Nat) : Prop := (∀ v, (e, v) ∉ escapes) ∧ (∀ w, ¬ IsHexEscape clob e w) ∧ e ≠ 10 ∧ e ≠ 13

/-- What may not stand in quoted text: control characters other than whitespace, in clobs characters outside ASCII, wrong escape sequences. -/
inductive BadChar (clob : Bool) : List Nat → Prop
  | control (c : Nat) (rest : List Nat) : c < 0x20 → ¬ IsSpace c → BadChar clob (c :: rest)
  | nonAscii (c : Nat) (rest : List Nat) : clob = true → 0x7F < c → IsScalarValue c → BadChar clob (c :: rest)
  | cut : BadChar clob [92]
  | escape (e : Nat) (rest : List Nat) : IsBadEscape clob e → BadChar clob (92 :: e :: rest)
  | hex (e w k : Nat) (ds : List Nat) (n : Nat) (rest : List Nat) : IsHexEscape clob e w → HexNum k ds n → k < w → NoNext (fun c => ∃ v, HexDigit c v) rest →
      BadChar clob (92 :: e :: (ds ++ rest))

/-- After an opening quote `q`: a text that ends before the closing quote, or with something wrong or a line break before it. -/
inductive BadQuoted (q : Nat) (clob : Bool) : List Nat → Prop
  | cut : BadQuoted q clob []
  | char (bs rest : List Nat) (c : Nat) : IsChar q clob bs c → BadQuoted q clob rest → BadQuoted q clob (bs ++ rest)
  | continued (nl rest : List Nat) : IsBreak nl rest → BadQuoted q clob rest → BadQuoted q clob (92 :: (nl ++ rest))
  | newline (c : Nat) (rest : List Nat) : c = 10 ∨ c = 13 → BadQuoted q clob (c :: rest)
  | bad (rest : List Nat) : BadChar clob rest → BadQuoted q clob rest

/-- After three single quotes: a text that ends before the closing ones, or with something wrong before them. -/
inductive BadLong (clob : Bool) : List Nat → Prop
  | cut (n : Nat) : n ≤ 2 → BadLong clob (List.replicate n 39)
  | char (n : Nat) (bs rest : List Nat) (c : Nat) : n ≤ 2 → IsChar 39 clob bs c → BadLong clob rest → BadLong clob (List.replicate n 39 ++ (bs ++ rest))
  | newline (n : Nat) (nl rest : List Nat) : n ≤ 2 → IsBreak nl rest → BadLong clob rest → BadLong clob (List.replicate n 39 ++ (nl ++ rest))
  | continued (n : Nat) (nl rest : List Nat) : n ≤ 2 → IsBreak nl rest → BadLong clob rest → BadLong clob (List.replicate n 39 ++ 92 :: (nl ++ rest))
  | bad (n : Nat) (rest : List Nat) : n ≤ 2 → BadChar clob rest → BadLong clob (List.replicate n 39 ++ rest)

/-- A long string with something wrong in one of its pieces. -/
inductive BadLongs (clob : Bool) : List Nat → Prop
  | one (r : List Nat) : BadLong clob r → BadLongs clob (quotes3 ++ r)
  | more (bs g rest : List Nat) (t : Text) : IsLongChars clob bs t → IsTrivia g → (clob = true → IsBlank g) → BadLongs clob rest →
      BadLongs clob (quotes3 ++ (bs ++ (quotes3 ++ (g ++ rest))))

/-! ## Numbers and timestamps -/

/-- A character that ends a number: a bracket, a comma, a quote, whitespace, or the slash of a comment. -/
def IsStop (c : Nat) : Prop := c ∈ asc ['{', '}', '[', ']', '(', ')', ',', '"', '\''] ∨ IsSpace c ∨ c = 47

/-- `tok` is all the text up to the next character that ends a number. -/
def EndsRun (tok r : List Nat) : Prop := (∀ c ∈ tok, ¬ IsStop c) ∧ ∀ c r', r = c :: r' → IsStop c

/-- A number without its sign: an integer in decimal, hexadecimal or binary notation, or one with a fraction, an exponent, or both.
Underscores between digits may also stand in the exponent, because the reader accepts them there (`C38_underscore_in_exponent`). -/
inductive IsNumeral : List Nat → Prop
  | coefficient (t co all : List Nat) (n : Nat) : IsCoefficient co all n → Spelled t co → IsNumeral t
  | exponent (t co all : List Nat) (n e : Nat) (s u ds : List Nat) : IsCoefficient co all n → Spelled t co → e ∈ asc ['d', 'D', 'e', 'E'] →
      s ∈ [[], [43], [45]] → ds ≠ [] → Digits ds → Spelled u ds → IsNumeral (t ++ e :: (s ++ u))
  | radix (base b : Nat) (t ds : List Nat) (n : Nat) : base = 2 ∧ (b = 98 ∨ b = 66) ∨ base = 16 ∧ (b = 120 ∨ b = 88) → ds ≠ [] →
      DigitsIn base ds n → Spelled t ds → IsNumeral (48 :: b :: t)

/-- An offset: `Z`, or a sign, two digits, a colon, two digits. -/
inductive IsOffsetShape : List Nat → Prop
  | utc : IsOffsetShape [90]
  | hours (s a b c d : Nat) : s = 43 ∨ s = 45 → Digits [a, b, c, d] → IsOffsetShape [s, a, b, 58, c, d]

/-- A time of day. -/
inductive IsTimeShape : List Nat → Prop
  | minute (a b c d : Nat) (off : List Nat) : Digits [a, b, c, d] → IsOffsetShape off → IsTimeShape (a :: b :: 58 :: c :: d :: off)
  | second (a b c d e f : Nat) (off : List Nat) : Digits [a, b, c, d, e, f] → IsOffsetShape off → IsTimeShape (a :: b :: 58 :: c :: d :: 58 :: e :: f :: off)
  | fraction (a b c d e f : Nat) (fs off : List Nat) : Digits [a, b, c, d, e, f] → fs ≠ [] → Digits fs → IsOffsetShape off →
      IsTimeShape (a :: b :: 58 :: c :: d :: 58 :: e :: f :: 46 :: (fs ++ off))

/-- A timestamp, whatever its numbers are.  The reader accepts not only `-` but also `T` between the parts of the date (`C38_date_with_t`). -/
inductive IsTimestampShape : List Nat → Prop
  | year (y : List Nat) : y.length = 4 → Digits y → IsTimestampShape (y ++ [84])
  | month (y : List Nat) (s a b : Nat) : y.length = 4 → Digits y → s = 45 ∨ s = 84 → Digits [a, b] → IsTimestampShape (y ++ [s, a, b, 84])
  | day (y : List Nat) (s a b s' c d : Nat) (suf : List Nat) : y.length = 4 → Digits y → s = 45 ∨ s = 84 → Digits [a, b] → s' = 45 ∨ s' = 84 → Digits [c, d] →
      suf = [] ∨ suf = [84] ∨ (∃ t, suf = 84 :: t ∧ IsTimeShape t) → IsTimestampShape (y ++ s :: a :: b :: s' :: c :: d :: suf)

/-- What starts like a number, but is neither a number nor a timestamp. -/
inductive BadNumber : List Nat → Prop
  | unsigned (d : Nat) (tok r : List Nat) : Digit d → EndsRun (d :: tok) r → ¬ IsNumeral (d :: tok) → ¬ IsTimestampShape (d :: tok) → BadNumber (d :: (tok ++ r))
  | negative (d : Nat) (tok r : List Nat) : Digit d → EndsRun (d :: tok) r → ¬ IsNumeral (d :: tok) → BadNumber (45 :: d :: (tok ++ r))

/-! ## Words -/

/-- A character that may not follow an identifier: neither part of it, nor the end of a token, nor a colon, nor in an s-expression an operator. -/
def BadAfter (p : Place) (c : Nat) : Prop := ¬ IdentStart c ∧ ¬ Digit c ∧ ¬ IsStop c ∧ c ≠ 58 ∧ (p = some .sexp → ¬ OpChar c)

/-- The token does not end here. -/
def GoesOn (p : Place) (r : List Nat) : Prop := ∃ c r', r = c :: r' ∧ ¬ IsStop c ∧ (p = some .sexp → ¬ OpChar c)

/-- What starts like an identifier, a keyword, a typed null, an infinity or an annotation, but is none. -/
inductive BadWord (p : Place) : List Nat → Prop
  | char (w : List Nat) (c : Nat) (r : List Nat) : IsIdent w → BadAfter p c → (w = asc ['n','u','l','l'] → c ≠ 46) → BadWord p (w ++ c :: r)
  | keyword (w r : List Nat) : w ∈ reserved → BadWord p (w ++ 58 :: r)
  | null (r : List Nat) : (∀ ty r', r = typeName ty ++ r' → GoesOn p r') → BadWord p (asc ['n','u','l','l','.'] ++ r)
  | plus (r : List Nat) : p ≠ some .sexp → (∀ r', r = asc ['i','n','f'] ++ r' → GoesOn p r') → BadWord p (43 :: r)
  | minus (c : Nat) (r : List Nat) : p ≠ some .sexp → ¬ Digit c → (∀ r', c :: r = asc ['i','n','f'] ++ r' → GoesOn p r') → BadWord p (45 :: c :: r)
  | colon (s g r : List Nat) (a : TSym) : IsSym s a → IsGap g → (s = [39, 39] → IsBlank g) → NoNext (· = 58) r → BadWord p (s ++ (g ++ 58 :: r))

/-! ## Clobs and blobs -/

/-- After the text of a clob: something else than two closing braces. -/
inductive BadLobEnd : List Nat → Prop
  | cut (w : List Nat) : IsBlank w → BadLobEnd w
  | char (w : List Nat) (c : Nat) (r : List Nat) : IsBlank w → ¬ IsSpace c → c ≠ 125 → BadLobEnd (w ++ c :: r)
  | brace (w r : List Nat) : IsBlank w → NoNext (· = 125) r → BadLobEnd (w ++ 125 :: r)

/-- One of the 64 digits of Base64. -/
def B64Char (c : Nat) : Prop := ∃ n < 64, c = Base64.digit n

/-- Whitespace, a digit of Base64 or padding. -/
def BlobChar (c : Nat) : Prop := IsSpace c ∨ B64Char c ∨ c = 61

/-- `BlobCount t n k`: `t` has `n` characters that are not whitespace, `k` of them padding. -/
inductive BlobCount : List Nat → Nat → Nat → Prop
  | nil : BlobCount [] 0 0
  | space (c : Nat) (t : List Nat) (n k : Nat) : IsSpace c → BlobCount t n k → BlobCount (c :: t) n k
  | digit (c : Nat) (t : List Nat) (n k : Nat) : B64Char c → BlobCount t n k → BlobCount (c :: t) (n + 1) k
  | pad (t : List Nat) (n k : Nat) : BlobCount t n k → BlobCount (61 :: t) (n + 1) (k + 1)

/-- After two opening braces: what is not the rest of a blob. -/
inductive BadBlob : List Nat → Prop
  | cut (t : List Nat) : (∀ c ∈ t, BlobChar c) → BadBlob t
  | char (t : List Nat) (c : Nat) (r : List Nat) : (∀ c ∈ t, BlobChar c) → ¬ BlobChar c → c ≠ 125 → (c = 34 ∨ c = 39 → ¬ IsBlank t) → BadBlob (t ++ c :: r)
  | brace (t r : List Nat) : (∀ c ∈ t, BlobChar c) → NoNext (· = 125) r → BadBlob (t ++ 125 :: r)
  | length (t r : List Nat) (n k : Nat) : BlobCount t n k → n % 4 ≠ 0 ∨ 3 < k → BadBlob (t ++ 125 :: 125 :: r)
  | padded (t r : List Nat) (c : Nat) : (∀ c ∈ t, BlobChar c) → B64Char c → BadBlob (t ++ 61 :: c :: r)

/-! ## Tokens -/

/-- The beginning of a value that is wrong. -/
inductive BadValue (p : Place) : List Nat → Prop
  | string (r : List Nat) : BadQuoted 34 false r → BadValue p (34 :: r)
  | symbol (r : List Nat) : BadQuoted 39 false r → BadValue p (39 :: r)
  | longString (r : List Nat) : BadLongs false r → BadValue p r
  | clob (w r : List Nat) : IsBlank w → BadQuoted 34 true r → BadValue p (123 :: 123 :: (w ++ 34 :: r))
  | longClob (w r : List Nat) : IsBlank w → BadLongs true r → BadValue p (123 :: 123 :: (w ++ r))
  | number (r : List Nat) : BadNumber r → BadValue p r
  | word (r : List Nat) : BadWord p r → BadValue p r
  | clobEnd (w bs r : List Nat) (t : Text) : IsBlank w → IsChars 34 true bs t → BadLobEnd r → BadValue p (123 :: 123 :: (w ++ 34 :: (bs ++ 34 :: r)))
  | longClobEnd (w s r : List Nat) (t : Text) : IsBlank w → IsLong true s t → BadLobEnd r → (∀ w' r', IsBlank w' → r ≠ w' ++ 39 :: r') → BadValue p (123 :: 123 :: (w ++ (s ++ r)))
  | blob (r : List Nat) : BadBlob r → BadValue p (123 :: 123 :: r)

/-- The beginning of a field name that is wrong. -/
inductive BadName : List Nat → Prop
  | string (r : List Nat) : BadQuoted 34 false r → BadName (34 :: r)
  | symbol (r : List Nat) : BadQuoted 39 false r → BadName (39 :: r)
  | longString (r : List Nat) : BadLongs false r → BadName r
  | char (w : List Nat) (c : Nat) (r : List Nat) : IsIdent w → BadAfter (some .struct) c → BadName (w ++ c :: r)
  | keyword (w r : List Nat) : w ∈ reserved → (∀ c r', r = c :: r' → c = 58 ∨ IsStop c ∧ c ≠ 11 ∧ c ≠ 12) → BadName (w ++ r)
  | noColon (s g r : List Nat) (a : TSym) : IsFieldName s a → IsGap g → (s = [39, 39] → IsBlank g) → IsToken r → NoNext (· = 58) r →
      (IsIdent s → g ≠ []) → (∀ l, s = 39 :: 39 :: l → NoNext (· = 39) r) → BadName (s ++ (g ++ r))

/-! ## Texts -/

/-- Places in a text: where a value or a field may start or the container end; after a field name or annotations, where a value must follow;
after a value in a list or struct, where a comma must follow or the container end. -/
inductive Position
  | start | named | after
  deriving DecidableEq

/-- `IsAt F pos p d t es r`: the place `pos` is after `t` and before `r`; see `IsOpen`. -/
inductive IsAt (F : FloatText) : Position → Place → Nat → List Nat → List IonEvent → List Nat → Prop
  | start (p : Place) (d : Nat) (t : List Nat) (es : List IonEvent) (r : List Nat) : IsOpen F p d t es r → IsAt F .start p d t es r
  | named (p : Place) (d : Nat) (t : List Nat) (es : List IonEvent) (name anns r : List Nat) (f : Option TSym) (as : List TSym) :
      IsOpen F p d t es (name ++ (anns ++ r)) → IsName p name f → IsAnns anns as → name ++ anns ≠ [] → IsAt F .named p d (t ++ (name ++ anns)) es r
  | after (ty : CType) (d : Nat) (t : List Nat) (es : List IonEvent) (v g r : List Nat) (n : Node TSym) :
      IsOpen F (some ty) d t es (v ++ (g ++ r)) → ty ≠ .sexp → IsValue F (some ty) v n → EndsBefore (some ty) n v g r →
      IsAt F .after (some ty) d (t ++ (v ++ g)) (es ++ eventsOf d n) r

/-- What may not follow at a place. -/
inductive IsWrong : Position → Place → List Nat → Prop
  | unclosed (ty : CType) : IsWrong .start (some ty) []
  | start (p : Place) (c : Nat) (r : List Nat) : ¬ MayFollow p c → IsWrong .start p (c :: r)
  | namedEnd (p : Place) : IsWrong .named p []
  | named (p : Place) (c : Nat) (r : List Nat) : ¬ BeginsValue p c → IsWrong .named p (c :: r)
  | after (ty : CType) (c : Nat) (r : List Nat) : c ≠ 44 → c ≠ closing ty → IsWrong .after (some ty) (c :: r)
  | value (p : Place) (r : List Nat) : p ≠ some .struct → BadValue p r → IsWrong .start p r
  | namedValue (p : Place) (r : List Nat) : BadValue p r → IsWrong .named p r
  | field (r : List Nat) : BadName r → IsWrong .start (some .struct) r
  /-- A marker of another version than 1.0 (not an annotation: no colons follow). -/
  | version (major minor g r : List Nat) : major ≠ [] → Digits major → minor ≠ [] → Digits minor → (major, minor) ≠ ([49], [48]) → IsGap g → (g = [] → r = [] ∨ Opens r) → IsToken r → NoNext (· = 58) r →
      IsWrong .start none (asc ['$','i','o','n','_'] ++ (major ++ 95 :: (minor ++ (g ++ r))))

end Ion.TextSpec
