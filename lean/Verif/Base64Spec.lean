import Verif.TextWriter
import Verif.TextReader
set_option linter.unusedSimpArgs false
/-!
# Specification: Base64 (RFC 4648, section 4)

Every three bytes are a number of 24 bits, written as four digits of six bits.  A last group of one or two bytes is filled
up with zero bits; digits that only hold filling are replaced by `=`.
-/
namespace Ion.Base64
open Ion

/-- The alphabet of table 1 of the RFC. -/
def alphabet : List Char :=
  ['A','B','C','D','E','F','G','H','I','J','K','L','M','N','O','P','Q','R','S','T','U','V','W','X','Y','Z',
   'a','b','c','d','e','f','g','h','i','j','k','l','m','n','o','p','q','r','s','t','u','v','w','x','y','z',
   '0','1','2','3','4','5','6','7','8','9','+','/']

/-- A digit of the alphabet, as a code point. -/
def digit (n : Nat) : Nat := (alphabet.getD n '=').toNat

/-- The four digits of three bytes. -/
def group (a b c : Nat) : List Nat :=
  let n := a * 65536 + b * 256 + c
  [digit (n / 262144 % 64), digit (n / 4096 % 64), digit (n / 64 % 64), digit (n % 64)]

/-- The encoding of bytes. -/
def encode : List Nat → List Nat
  | [] => []
  | [a] => (group a 0 0).take 2 ++ ['='.toNat, '='.toNat]
  | [a, b] => (group a b 0).take 3 ++ ['='.toNat]
  | a :: b :: c :: rest => group a b c ++ encode rest

/-! ## The code -/

theorem digit_eq {n : Nat} (h : n < 64) : TextWriter.b64Digit n = digit n := by
  have : ∀ n < 64, TextWriter.b64Digit n = digit n := by decide +kernel
  exact this n h

theorem cons_digit {a b : Nat} {l m : List Nat} (h : a = b) (hl : l = m) : digit a :: l = digit b :: m := by rw [h, hl]

theorem encode_eq (l : List Nat) (h : ∀ b ∈ l, b < 256) : TextWriter.b64encode l = encode l := by
  fun_induction TextWriter.b64encode l with
  | case1 => rfl
  | case2 a =>
    have := h a (by simp)
    simp only [encode, group, List.take_succ_cons, List.take_zero, List.cons_append, List.nil_append]
    rw [digit_eq (by omega), digit_eq (by omega)]
    exact cons_digit (by omega) (cons_digit (by omega) rfl)
  | case3 a b =>
    have := h a (by simp)
    have := h b (by simp)
    simp only [encode, group, List.take_succ_cons, List.take_zero, List.cons_append, List.nil_append]
    rw [digit_eq (by omega), digit_eq (by omega), digit_eq (by omega)]
    exact cons_digit (by omega) (cons_digit (by omega) (cons_digit (by omega) rfl))
  | case4 a b c rest ih =>
    have := h a (by simp)
    have := h b (by simp)
    have := h c (by simp)
    rw [ih (fun b hb => h b (by simp [hb]))]
    simp only [encode, group, List.cons_append, List.nil_append]
    rw [digit_eq (by omega), digit_eq (by omega), digit_eq (by omega), digit_eq (by omega)]
    exact cons_digit (by omega) (cons_digit (by omega) (cons_digit (by omega) (cons_digit (by omega) rfl)))

/-! ## Decoding -/

theorem val_digit {n : Nat} (h : n < 64) : TextReader.b64Val (digit n) = some n ∧ digit n ≠ 61 := by
  have : ∀ n < 64, TextReader.b64Val (digit n) = some n ∧ digit n ≠ 61 := by decide +kernel
  exact this n h

/-- Decoding gives the bytes back. -/
theorem decode_encode (l : List Nat) (h : ∀ b ∈ l, b < 256) : TextReader.b64decode (encode l) = .ok l := by
  unfold TextReader.b64decode
  fun_induction encode l with
  | case1 => rfl
  | case2 a =>
    have := h a (by simp)
    obtain ⟨e1, n1⟩ := val_digit (n := (a * 65536 + 0 * 256 + 0) / 262144 % 64) (by omega)
    obtain ⟨e2, n2⟩ := val_digit (n := (a * 65536 + 0 * 256 + 0) / 4096 % 64) (by omega)
    simp only [group, List.take_succ_cons, List.take_zero, List.cons_append, List.nil_append, TextReader.b64Loop, n1, n2, e1, e2, if_false, if_true,
      Nat.reduceEqDiff, show '='.toNat = 61 from rfl, Except.map, ge_iff_le, Nat.reduceLeDiff, Nat.reduceAdd, Nat.le_refl]
    congr 2
    omega
  | case3 a b =>
    have := h a (by simp)
    have := h b (by simp)
    obtain ⟨e1, n1⟩ := val_digit (n := (a * 65536 + b * 256 + 0) / 262144 % 64) (by omega)
    obtain ⟨e2, n2⟩ := val_digit (n := (a * 65536 + b * 256 + 0) / 4096 % 64) (by omega)
    obtain ⟨e3, n3⟩ := val_digit (n := (a * 65536 + b * 256 + 0) / 64 % 64) (by omega)
    simp only [group, List.take_succ_cons, List.take_zero, List.cons_append, List.nil_append, TextReader.b64Loop, n1, n2, n3, e1, e2, e3, if_false, if_true,
      Nat.reduceEqDiff, show '='.toNat = 61 from rfl, Except.map, ge_iff_le, Nat.reduceLeDiff, Nat.reduceAdd, Nat.le_refl]
    congr 2
    · omega
    · congr 1; omega
  | case4 a b c rest ih =>
    have := h a (by simp)
    have := h b (by simp)
    have := h c (by simp)
    obtain ⟨e1, n1⟩ := val_digit (n := (a * 65536 + b * 256 + c) / 262144 % 64) (by omega)
    obtain ⟨e2, n2⟩ := val_digit (n := (a * 65536 + b * 256 + c) / 4096 % 64) (by omega)
    obtain ⟨e3, n3⟩ := val_digit (n := (a * 65536 + b * 256 + c) / 64 % 64) (by omega)
    obtain ⟨e4, n4⟩ := val_digit (n := (a * 65536 + b * 256 + c) % 64) (by omega)
    simp only [group, List.take_succ_cons, List.take_zero, List.cons_append, List.nil_append, TextReader.b64Loop, n1, n2, n3, n4, e1, e2, e3, e4, if_false, if_true,
      Nat.reduceEqDiff, Except.map, ih (fun b hb => h b (by simp [hb]))]
    congr 2
    · omega
    · congr 1
      · omega
      · congr 1; omega

end Ion.Base64
