import Verif.TextSpec
set_option linter.unusedSimpArgs false
/-!
# Specification: the beginning of an Ion text

Texts that are cut off between two tokens: which values are complete, which containers are open, and what may come next.
Like `TextSpec.lean`, this is independent of the code.  In all relations, `r` is the text that follows.
-/
namespace Ion.TextSpec
open Ion Ion.Spec

/-- The character does not belong to whitespace or a comment. -/
def IsTokenChar (c : Nat) : Prop := c ≤ 0x10FFFF ∧ ¬ IsSpace c ∧ c ≠ 47

/-- What follows is not whitespace or a comment. -/
def IsToken (r : List Nat) : Prop := ∀ c r', r = c :: r' → IsTokenChar c

/-- The value ends before `rest`: as in a document, or because a comma, a closing bracket or (in an s-expression) an operator stands there. -/
def EndsBefore (p : Place) (n : Node TSym) (v g rest : List Nat) : Prop :=
  (IsApart n v g rest ∨ (IsApart n v g [] ∧ ∃ c r, rest = c :: r ∧ c ∈ [41, 44, 93, 125]) ∨ (p = some .sexp ∧ g = [] ∧ IsJoined n v rest)) ∧ ∀ r, rest ≠ 58 :: r

/-- The values of a container that stand before `r`, with the commas after them. -/
inductive IsBefore (F : FloatText) (r : List Nat) : CType → List Nat → List (Node TSym) → Prop
  | nil (ty : CType) : IsBefore F r ty [] []
  | comma (ty : CType) (v g w rest : List Nat) (n : Node TSym) (items : List (Node TSym)) : ty ≠ .sexp → IsValue F (some ty) v n → IsApart n v g [] → IsTrivia w →
      IsBefore F r ty rest items → IsBefore F r ty (v ++ (g ++ 44 :: (w ++ rest))) (n :: items)
  | sexp (v g rest : List Nat) (n : Node TSym) (items : List (Node TSym)) : IsValue F (some .sexp) v n → EndsBefore (some .sexp) n v g (rest ++ r) → rest ++ r ≠ [] →
      IsBefore F r .sexp rest items → IsBefore F r .sexp (v ++ (g ++ rest)) (n :: items)

/-- The values and version markers at the top level that stand before `r`. -/
inductive IsDocBefore (F : FloatText) (r : List Nat) : List Nat → List (Option (Node TSym)) → Prop
  | nil : IsDocBefore F r [] []
  | marker (g rest : List Nat) (items : List (Option (Node TSym))) : IsGap g → (g = [] → rest ++ r = [] ∨ Opens (rest ++ r)) → (∀ r', rest ++ r ≠ 58 :: r') →
      IsDocBefore F r rest items → IsDocBefore F r (asc ['$','i','o','n','_','1','_','0'] ++ (g ++ rest)) (none :: items)
  | value (v g rest : List Nat) (n : Node TSym) (items : List (Option (Node TSym))) : IsValue F none v n → EndsBefore none n v g (rest ++ r) →
      IsDocBefore F r rest items → IsDocBefore F r (v ++ (g ++ rest)) (some n :: items)

/-- The event of the start of a container. -/
def startOf (d : Nat) (f : Option TSym) (as : List TSym) (ty : CType) : IonEvent :=
  { eventType := .containerStart, ionType := some ty.ty, fieldName := f.map fun s => .tok s.token, annotations := as.map fun s => .tok s.token, depth := some d }

/-- `IsOpen F p d t es r`: after `t`, and before `r`, is a place where a value (or, in a struct, a field) may start.  `p` is the
innermost open container, `d` the number of open containers, `es` are the events of `t`. -/
inductive IsOpen (F : FloatText) : Place → Nat → List Nat → List IonEvent → List Nat → Prop
  | top (ws bs r : List Nat) (items : List (Option (Node TSym))) : IsTrivia ws → IsDocBefore F r bs items → IsOpen F none 0 (ws ++ bs) (docEvents items) r
  | inside (p : Place) (d : Nat) (t : List Nat) (es : List IonEvent) (name anns w body r : List Nat) (f : Option TSym) (as : List TSym) (ty : CType)
      (items : List (Node TSym)) : IsOpen F p d t es (name ++ (anns ++ opening ty :: (w ++ (body ++ r)))) → IsName p name f → IsAnns anns as → IsTrivia w →
      (∀ r', body = 47 :: r' → IsBlank w) → IsBefore F r ty body items → (ty = .struct → w ++ body = [] → ∃ c r', r = c :: r' ∧ c ≠ 123) →
      IsOpen F (some ty) (d + 1) (t ++ (name ++ (anns ++ opening ty :: (w ++ body)))) (es ++ startOf d f as ty :: eventsOfAll (d + 1) items) r

/-- A character with which a value may start at a place `p`. -/
def BeginsValue (p : Place) (c : Nat) : Prop :=
  Digit c ∨ IdentStart c ∨ c ∈ asc ['+', '-', '"', '\'', '[', '(', '{'] ∨ (p = some .sexp ∧ OpChar c)

/-- A character with which a field may start. -/
def BeginsField (c : Nat) : Prop := IdentStart c ∨ c = 34 ∨ c = 39

/-- A character that may stand at a place where a value or field may start: it starts one, or closes the container. -/
def MayFollow (p : Place) (c : Nat) : Prop :=
  match p with
  | none => BeginsValue none c
  | some .struct => BeginsField c ∨ c = 125
  | some ty => BeginsValue (some ty) c ∨ c = closing ty

end Ion.TextSpec
