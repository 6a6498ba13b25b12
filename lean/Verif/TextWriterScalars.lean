import Verif.TextValues
import Verif.TimestampSpec
import Verif.Props.Util
set_option linter.unusedSimpArgs false
/-!
# What the text writer writes for scalars and symbols

The texts that `TextWriter.lean` produces are in the grammar of `TextSpec.lean`, and denote the value that was given.
-/
namespace Ion.TextSpec
open Ion

/-- The exponent of a finite float is not the largest one. -/
def Finite (bits : UInt64) : Prop := bits.toNat / 2 ^ 52 % 2 ^ 11 ≠ 2 ^ 11 - 1

/-- The only NaN that text can express. -/
def nanBits : UInt64 := 0x7FF8000000000000

/-- What is assumed of Python's `repr` and `float(...)`: `repr` of a finite float is a decimal numeral with an optional
exponent, and `float` reads it back, also with `e0` put behind a numeral without exponent. -/
structure Faithful (F : FloatText) : Prop where
  numeral : ∀ bits, Finite bits → ∃ neg co all n, IsCoefficient co all n ∧
    ((∃ e ex i, (e = 101 ∨ e = 69) ∧ IsExponent ex i ∧ F.repr bits = signText neg ++ co ++ e :: ex ∧ F.parse (F.repr bits) = .ok bits) ∨
     (F.repr bits = signText neg ++ co ∧ F.parse (F.repr bits ++ asc ['e','0']) = .ok bits))

/-- Text of which every element is a Unicode scalar value. -/
def IsUnicode (t : Text) : Prop := ∀ c ∈ t, IsScalarValue c

/-- A timestamp that text can express: made by the constructor with a precision, or a plain `datetime`; the offset in whole
minutes, and none without a time; a fraction of at most 28 digits that is not negative zero. -/
def TextTime : Scalars.TimeVal → Prop
  | .ts t => Scalars.RegularTime (.ts t) ∧ (∃ p, t.precision = some p ∧ (p.includesMinute = false → t.dt.tz = none)) ∧ t.frac.sign = false
  | .dt d => Scalars.RegularTime (.dt d)

/-- A symbol that text can express: `$10` as text would be read as a symbol ID. -/
def SymSafe : TSym → Prop
  | .text t => IsUnicode t ∧ ¬ IsSidText t
  | .sid _ => True

/-- The Python values that text can express. -/
def ValSafe : PyVal → Prop
  | .float bits => Finite bits ∨ bits.toNat % 2 ^ 52 = 0 ∨ bits = nanBits
  | .timestamp t => TextTime t
  | .str t => IsUnicode t
  | _ => True

/-- The symbol that a token stands for in text: its text if it has one. -/
def tokSym (k : SymbolToken) : Option TSym :=
  match k.text with
  | some t => some (.text t)
  | none => k.sid.map .sid

/-- The symbol that a field name or an annotation stands for in text. -/
def argSym : SymArg → Option TSym
  | .text t => some (.text t)
  | .tok k => tokSym k

end Ion.TextSpec

namespace Ion.TextWriter
open Ion Ion.TextSpec
open Ion.Spec (IsTimeValue timeValue denote)
open Ion.TextReader (decFixed_digits decNum_snoc decNum_decFixed)

/-! ## Digits -/

theorem digits_append {a b : List Nat} (ha : Digits a) (hb : Digits b) : Digits (a ++ b) := by
  intro c hc
  rcases List.mem_append.1 hc with h | h
  · exact ha c h
  · exact hb c h

theorem digits_zeros (n : Nat) : Digits (List.replicate n 48) := by
  intro c hc
  rw [List.eq_of_mem_replicate hc]
  simp [Digit]

theorem natDigits_spec : ∀ (n : Nat), Digits (natDigits n) ∧ natDigits n ≠ [] ∧ decNum (natDigits n) = n ∧
    (∀ d r, natDigits n = d :: r → n ≠ 0 → d ≠ 48) ∧ (n = 0 → natDigits n = [48]) := by
  intro n
  induction n using Nat.strongRecOn with
  | _ n ih =>
    unfold natDigits
    by_cases h : n < 10
    · rw [if_pos h]
      refine ⟨?_, by simp, by simp [decNum], ?_, ?_⟩
      · intro c hc
        simp only [List.mem_singleton] at hc
        subst hc
        simp only [Digit]; omega
      · intro d r hd h0
        simp only [List.cons.injEq] at hd
        omega
      · rintro rfl; rfl
    · rw [if_neg h]
      obtain ⟨h1, h2, h3, h4, h5⟩ := ih (n / 10) (by omega)
      refine ⟨?_, by simp, ?_, ?_, fun h0 => by omega⟩
      · refine digits_append h1 ?_
        intro c hc
        simp only [List.mem_singleton] at hc
        subst hc
        simp only [Digit]; omega
      · rw [decNum_snoc, h3]; omega
      · intro d r hd h0
        revert h1 h2 h3 h4 h5
        generalize natDigits (n / 10) = l at *
        intro h1 h2 h3 h4 h5
        cases l with
        | nil => exact absurd rfl h2
        | cons d' r' =>
          simp only [List.cons_append, List.cons.injEq] at hd
          rw [← hd.1]
          exact h4 d' r' rfl (by omega)

theorem natDigits_uint (n : Nat) : IsUInt (natDigits n) := by
  obtain ⟨h1, h2, h3, h4, h5⟩ := natDigits_spec n
  by_cases h0 : n = 0
  · exact .inl (h5 h0)
  · right
    revert h1 h2 h3 h4 h5
    generalize natDigits n = l
    intro h1 h2 h3 h4 h5
    cases l with
    | nil => exact absurd rfl h2
    | cons d r =>
      have h6 := h1 d (by simp)
      have h7 := h4 d r rfl h0
      simp only [Digit] at h6
      exact ⟨d, r, rfl, by omega, by omega, fun c hc => h1 c (by simp [hc])⟩

theorem natDigits_length {n k : Nat} (h : n < 10 ^ k) (hk : 0 < k) : (natDigits n).length ≤ k := by
  induction k generalizing n with
  | zero => omega
  | succ k ih =>
    unfold natDigits
    by_cases h10 : n < 10
    · rw [if_pos h10]; simp
    · rw [if_neg h10]
      simp only [List.length_append, List.length_cons, List.length_nil]
      cases k with
      | zero => omega
      | succ k =>
        have := ih (n := n / 10) (by rw [Nat.pow_succ] at h; omega) (by omega)
        omega

theorem decNum_zeros (k : Nat) (l : List Nat) : decNum (List.replicate k 48 ++ l) = decNum l := by
  induction k with
  | zero => simp
  | succ k ih =>
    rw [List.replicate_succ, List.cons_append]
    simp only [decNum, List.foldl_cons] at ih ⊢
    simpa using ih

/-! ## Integers and floats -/

theorem spelled_refl : ∀ l : List Nat, Spelled l l
  | [] => .nil
  | c :: l => .cons c l l (spelled_refl l)

theorem spaced_refl : ∀ l : List Nat, Spaced l l
  | [] => .nil
  | c :: l => .cons c l l (spaced_refl l)

theorem int_text (F : FloatText) (i : Int) : IsScalarText F (intDigits i) (.int i) := by
  have h := natDigits_uint i.natAbs
  have hn := (natDigits_spec i.natAbs).2.2.1
  unfold intDigits
  by_cases hi : i < 0
  · rw [if_pos hi]
    have := IsScalarText.int (F := F) true _ _ h (spelled_refl _)
    rw [hn] at this
    simp only [if_true] at this
    rwa [show -((i.natAbs : Nat) : Int) = i by omega] at this
  · rw [if_neg hi]
    have := IsScalarText.int (F := F) false _ _ h (spelled_refl _)
    rw [hn] at this
    simp only [Bool.false_eq_true, if_false] at this
    rwa [show ((i.natAbs : Nat) : Int) = i by omega] at this

theorem coef_noExp {co all : List Nat} {n : Nat} (h : IsCoefficient co all n) : ∀ c ∈ co, isExp c = false := by
  have key : ∀ ds, Digits ds → ∀ c ∈ ds, isExp c = false := by
    intro ds hds c hc
    have := hds c hc
    simp only [Digit] at this
    simp [isExp]; omega
  cases h with
  | whole _ hd => exact key _ (TextReader.uint_digits hd).2
  | point ds fs hd hf =>
    intro c hc
    rcases List.mem_append.1 hc with hc | hc
    · exact key _ (TextReader.uint_digits hd).2 c hc
    · rcases List.mem_cons.1 hc with rfl | hc
      · decide
      · exact key _ hf c hc

theorem sign_noExp (neg : Bool) : ∀ c ∈ signText neg, isExp c = false := by
  cases neg <;> simp [signText, isExp]

theorem float_text {F : FloatText} (hF : Faithful F) {bits : UInt64} (h : Finite bits ∨ bits.toNat % 2 ^ 52 = 0 ∨ bits = nanBits) :
    IsScalarText F (floatStr F bits) (.float bits) := by
  unfold floatStr
  by_cases hn : isNan bits = true
  · rw [if_pos hn]
    simp only [isNan, Bool.and_eq_true, decide_eq_true_eq] at hn
    have hb : bits = nanBits := by
      rcases h with h | h | h
      · simp only [Finite] at h; omega
      · omega
      · exact h
    subst hb
    exact .nan
  · rw [if_neg hn]
    by_cases hi : isInf bits = true
    · rw [if_pos hi]
      simp only [isInf, Bool.and_eq_true, decide_eq_true_eq] at hi
      have hlt := bits.toNat_lt
      by_cases hs : isNegative bits = true
      · rw [if_pos hs]
        simp only [isNegative, decide_eq_true_eq] at hs
        have : bits = 0xFFF0000000000000 := by
          apply UInt64.toNat_inj.1
          have h2 : bits.toNat = 18442240474082181120 := by omega
          rw [h2]; rfl
        subst this
        exact .negInf
      · rw [if_neg hs]
        simp only [isNegative, decide_eq_true_eq] at hs
        have : bits = 0x7FF0000000000000 := by
          apply UInt64.toNat_inj.1
          have h2 : bits.toNat = 9218868437227405312 := by omega
          rw [h2]; rfl
        subst this
        exact .posInf
    · rw [if_neg hi]
      have hf : Finite bits := by
        simp only [isNan, isInf, Bool.and_eq_true, decide_eq_true_eq] at hn hi
        simp only [Finite]
        omega
      obtain ⟨neg, co, all, n, hco, ⟨e, ex, i, he, hex, hr, hp⟩ | ⟨hr, hp⟩⟩ := hF.numeral bits hf
      · have hany : (F.repr bits).any isExp = true := by
          rw [hr]
          simp only [List.any_append, List.any_cons, Bool.or_eq_true]
          right; left
          rcases he with rfl | rfl <;> decide
        simp only [hany, if_true]
        rw [hr] at hp ⊢
        exact .float neg co co all n e ex i bits hco (spelled_refl _) he hex hp
      · have hany : (F.repr bits).any isExp = false := by
          rw [hr, List.any_append, Bool.or_eq_false_iff]
          exact ⟨List.any_eq_false.2 fun c hc => by simp [sign_noExp neg c hc], List.any_eq_false.2 fun c hc => by simp [coef_noExp hco c hc]⟩
        simp only [hany, Bool.false_eq_true, if_false]
        rw [hr] at hp ⊢
        have := IsScalarText.float (F := F) neg co co all n 101 [48] 0 bits hco (spelled_refl _) (.inl rfl) (.none [48] (by simp) (by simp [Digits, Digit])) hp
        exact this

/-! ## Decimals -/

theorem map_noExp {l : List Nat} (h : ∀ c ∈ l, isExp c = false) : (l.map fun c => if isExp c then 100 else c) = l := by
  induction l with
  | nil => rfl
  | cons c l ih =>
    rw [List.map_cons, h c (by simp), ih fun c hc => h c (by simp [hc])]
    simp

theorem coef_point {co all : List Nat} {n : Nat} (h : IsCoefficient co all n) :
    (46 ∉ co ∧ n = 0) ∨ ∃ ds fs, co = ds ++ 46 :: fs ∧ all = ds ++ fs ∧ n = fs.length ∧ IsUInt ds ∧ Digits fs := by
  cases h with
  | whole _ hd =>
    left
    refine ⟨fun hc => ?_, rfl⟩
    have := (TextReader.uint_digits hd).2 46 hc
    simp [Digit] at this
  | point ds fs hd hf => exact .inr ⟨ds, fs, rfl, rfl, rfl, hd, hf⟩

/-- A coefficient without exponent. -/
theorem fix_plain (F : FloatText) {neg : Bool} {co all : List Nat} {n : Nat} (hco : IsCoefficient co all n) :
    IsScalarText F (decimalFix (signText neg ++ co)) (.decimal ⟨neg, decNum all, -(n : Int)⟩) := by
  have hne : ∀ c ∈ signText neg ++ co, isExp c = false := by
    intro c hc
    rcases List.mem_append.1 hc with hc | hc
    · exact sign_noExp neg c hc
    · exact coef_noExp hco c hc
  unfold decimalFix
  rw [map_noExp hne]
  rcases coef_point hco with ⟨h1, rfl⟩ | ⟨ds, fs, rfl, rfl, rfl, hd, hf⟩
  · have : 46 ∉ signText neg ++ co := by
      simp only [List.mem_append, not_or]
      refine ⟨?_, h1⟩
      cases neg <;> simp [signText]
    rw [if_pos ⟨rfl, this⟩]
    have := IsScalarText.decimalExp (F := F) neg co co all 0 100 [48] 0 hco (spelled_refl _) (.inl rfl) (.none [48] (by simp) (by simp [Digits, Digit]))
    exact this
  · rw [if_neg (by simp)]
    exact .decimal neg _ ds fs hd hf (spelled_refl _)

/-- A coefficient with exponent. -/
theorem fix_exp (F : FloatText) {neg : Bool} {co all : List Nat} {n : Nat} (hco : IsCoefficient co all n) (i : Int) :
    IsScalarText F (decimalFix (signText neg ++ co ++ 69 :: (if i < 0 then 45 else 43) :: natDigits i.natAbs)) (.decimal ⟨neg, decNum all, i - n⟩) := by
  have hds := natDigits_spec i.natAbs
  have hex : IsExponent ((if i < 0 then 45 else 43) :: natDigits i.natAbs) i := by
    by_cases hi : i < 0
    · have := IsExponent.minus _ hds.2.1 hds.1
      rw [hds.2.2.1, show -((i.natAbs : Nat) : Int) = i by omega] at this
      rw [if_pos hi]
      exact this
    · have := IsExponent.plus _ hds.2.1 hds.1
      rw [hds.2.2.1, show ((i.natAbs : Nat) : Int) = i by omega] at this
      rw [if_neg hi]
      exact this
  have hmap : ((signText neg ++ co ++ 69 :: (if i < 0 then 45 else 43) :: natDigits i.natAbs).map fun c => if isExp c then 100 else c) =
      signText neg ++ co ++ 100 :: (if i < 0 then 45 else 43) :: natDigits i.natAbs := by
    rw [List.map_append, List.map_append, map_noExp (sign_noExp neg), map_noExp (coef_noExp hco), List.map_cons, List.map_cons, map_noExp]
    · by_cases hi : i < 0
      · simp only [hi, if_true]; rfl
      · simp only [hi, if_false]; rfl
    · intro c hc
      have := hds.1 c hc
      simp only [Digit] at this
      simp [isExp]; omega
  unfold decimalFix
  rw [hmap, if_neg]
  · exact .decimalExp neg co co all n 100 _ i hco (spelled_refl _) (.inl rfl) hex
  · rintro ⟨h, -⟩
    simp at h

theorem take_uint {n k : Nat} (hk : 0 < k) (hl : k < (natDigits n).length) : IsUInt ((natDigits n).take k) ∧ Digits ((natDigits n).drop k) := by
  have hd := (natDigits_spec n).1
  refine ⟨?_, fun c hc => hd c (List.mem_of_mem_drop hc)⟩
  have hu := natDigits_uint n
  rcases hu with h | ⟨d, r, h, h1, h2, h3⟩
  · rw [h] at hl; simp at hl; omega
  · rw [h]
    cases k with
    | zero => omega
    | succ k => exact .inr ⟨d, r.take k, rfl, h1, h2, fun c hc => h3 c (List.mem_of_mem_take hc)⟩

theorem decimal_text (F : FloatText) (d : Dec) : IsScalarText F (decimalStr d) (.decimal d) := by
  obtain ⟨hd, hne, hnum, -, -⟩ := natDigits_spec d.coeff
  have hu := natDigits_uint d.coeff
  have hlen : 0 < (natDigits d.coeff).length := List.length_pos_iff.2 hne
  -- the coefficient part
  have key : ∀ (dotplace : Int) (body : List Nat),
      (body = if dotplace ≤ 0 then 48 :: 46 :: (List.replicate (-dotplace).toNat 48 ++ natDigits d.coeff)
        else if dotplace ≥ (natDigits d.coeff).length then natDigits d.coeff ++ List.replicate (dotplace - (natDigits d.coeff).length).toNat 48
        else (natDigits d.coeff).take dotplace.toNat ++ 46 :: (natDigits d.coeff).drop dotplace.toNat) →
      dotplace ≤ (natDigits d.coeff).length →
      ∃ all n, IsCoefficient body all n ∧ decNum all = d.coeff ∧ (n : Int) = (natDigits d.coeff).length - dotplace := by
    intro dp body hb hle
    subst hb
    by_cases h0 : dp ≤ 0
    · rw [if_pos h0]
      refine ⟨_, _, .point [48] _ (.inl rfl) (digits_append (digits_zeros _) hd), ?_, ?_⟩
      · have := decNum_zeros ((-dp).toNat + 1) (natDigits d.coeff)
        rw [List.replicate_succ, hnum] at this
        exact this
      · simp only [List.length_append, List.length_replicate]; omega
    · rw [if_neg h0]
      by_cases h1 : dp ≥ (natDigits d.coeff).length
      · rw [if_pos h1]
        have : (dp - (natDigits d.coeff).length).toNat = 0 := by omega
        rw [this]
        simp only [List.replicate_zero, List.append_nil]
        exact ⟨_, _, .whole _ hu, hnum, by omega⟩
      · rw [if_neg h1]
        obtain ⟨t1, t2⟩ := take_uint (n := d.coeff) (k := dp.toNat) (by omega) (by omega)
        refine ⟨_, _, .point _ _ t1 t2, by rw [List.take_append_drop, hnum], ?_⟩
        rw [List.length_drop]; omega
  unfold decimalStr decimalToStr
  simp only
  generalize hdp : (if d.exp ≤ 0 ∧ d.exp + ((natDigits d.coeff).length : Int) > -6 then d.exp + ((natDigits d.coeff).length : Int) else 1) = dp
  have hle : dp ≤ (natDigits d.coeff).length := by
    rw [← hdp]; split <;> omega
  obtain ⟨all, n, hco, hall, hn⟩ := key dp _ rfl hle
  have hsign : (if d.sign = true then [45] else []) = signText d.sign := rfl
  rw [hsign]
  by_cases he : d.exp + ((natDigits d.coeff).length : Int) = dp
  · rw [if_pos he, List.append_nil]
    have := fix_plain F (neg := d.sign) hco
    rw [hall, show -(n : Int) = d.exp by omega] at this
    exact this
  · rw [if_neg he]
    have := fix_exp F (neg := d.sign) hco (d.exp + ((natDigits d.coeff).length : Int) - dp)
    rw [hall, show d.exp + ((natDigits d.coeff).length : Int) - dp - n = d.exp by omega] at this
    exact this

/-! ## Quoted text -/

theorem hexDigit_spec {n : Nat} (h : n < 16) : HexDigit (hexDigit n) n := by
  unfold hexDigit
  by_cases h10 : n < 10
  · rw [if_pos h10]
    have := HexDigit.digit (48 + n) (by omega) (by omega)
    rwa [Nat.add_sub_cancel_left] at this
  · rw [if_neg h10]
    have := HexDigit.lower (87 + n) (by omega) (by omega)
    rwa [Nat.add_sub_cancel_left] at this

theorem hexFixed_spec : ∀ (w n : Nat), n < 16 ^ w → HexNum w (hexFixed w n) n
  | 0, n, h => by
    have : n = 0 := by simpa using h
    subst this
    exact .nil
  | w + 1, n, h => by
    have := HexNum.snoc w _ (n / 16) _ _ (hexFixed_spec w (n / 16) (by rw [Nat.pow_succ] at h; omega)) (hexDigit_spec (Nat.mod_lt n (by omega : 0 < 16)))
    rwa [show 16 * (n / 16) + n % 16 = n by omega] at this

theorem char_text {q : Nat} (hq : q = 34 ∨ q = 39) {clob : Bool} {c : Nat} (hc : IsScalarValue c) (hclob : clob = true → c ≤ 255) :
    IsChar q clob (bytesChar (some q) c) c := by
  unfold bytesChar
  by_cases h1 : some c = some q
  · rw [if_pos h1]
    simp only [Option.some.injEq] at h1
    subst h1
    rcases hq with rfl | rfl <;> exact .escape _ _ (by decide)
  · rw [if_neg h1]
    by_cases h2 : c = 92
    · subst h2
      rw [if_pos rfl]
      exact .escape _ _ (by decide)
    · rw [if_neg h2]
      by_cases h3 : isPrintable c = true
      · rw [if_pos h3]
        simp only [isPrintable, Bool.and_eq_true, decide_eq_true_eq] at h3
        exact .plain c (.inl h3.1) hc (fun _ => by omega) (fun h => h1 (by rw [h])) h2
      · rw [if_neg h3]
        unfold escape
        by_cases e1 : c = 10
        · subst e1; exact .escape _ _ (by decide)
        by_cases e2 : c = 13
        · subst e2; exact .escape _ _ (by decide)
        by_cases e3 : c = 9
        · subst e3; exact .escape _ _ (by decide)
        rw [if_neg e1, if_neg e2, if_neg e3]
        by_cases e4 : c ≤ 0xFF
        · rw [if_pos e4]
          exact .hex2 _ _ (hexFixed_spec 2 c (by omega))
        · rw [if_neg e4]
          have hcl : clob = false := by
            cases clob with
            | false => rfl
            | true => have := hclob rfl; omega
          by_cases e5 : c ≤ 0xFFFF
          · rw [if_pos e5]
            exact .hex4 _ _ hcl (hexFixed_spec 4 c (by omega)) hc
          · rw [if_neg e5]
            have := hc.1
            exact .hex8 _ _ hcl (hexFixed_spec 8 c (by omega)) hc

theorem chars_text {q : Nat} (hq : q = 34 ∨ q = 39) {clob : Bool} : ∀ (t : Text), IsUnicode t → (clob = true → ∀ c ∈ t, c ≤ 255) →
    IsChars q clob (t.flatMap (bytesChar (some q))) t
  | [], _, _ => .nil
  | c :: t, h, hc => by
    rw [List.flatMap_cons]
    exact .cons _ _ _ _ (char_text hq (h c (by simp)) (fun hcl => hc hcl c (by simp))) (chars_text hq t (fun d hd => h d (by simp [hd])) (fun hcl d hd => hc hcl d (by simp [hd])))

theorem iter_unicode {t : Text} (h : IsUnicode t) : unicodeIter t = (t, none) :=
  Util.C40_python3_text t fun c hc => (h c hc).2

theorem textOrError_unicode {t : Text} (h : IsUnicode t) (q : Option Nat) (suf : List Nat) : textOrError t q suf = .ok (bytesText t q [] suf) := by
  unfold textOrError
  rw [iter_unicode h]

/-! ## Symbols -/

theorem keywords_reserved (t : Text) : t ∈ keywords ↔ t ∈ reserved := by
  simp only [keywords, reserved, List.mem_cons, List.not_mem_nil, or_false]
  grind

theorem identStart_iff (c : Nat) : isIdentStart c = true ↔ IdentStart c := by
  simp only [isIdentStart, IdentStart, Bool.or_eq_true, Bool.and_eq_true, decide_eq_true_eq]
  omega

theorem isIdentifier_iff (t : Text) : isIdentifier t = true ↔ IsIdent t := by
  cases t with
  | nil => simp [isIdentifier, IsIdent]
  | cons c cs =>
    simp only [isIdentifier, IsIdent, Bool.and_eq_true, identStart_iff, List.all_eq_true]
    refine and_congr Iff.rfl (forall_congr' fun d => imp_congr Iff.rfl ?_)
    simp only [isIdentPart, Bool.or_eq_true, identStart_iff, Digit, Bool.and_eq_true, decide_eq_true_eq]

theorem ident_plain {t : Text} (h : IsIdent t) : t.flatMap (bytesChar none) = t := by
  have key : ∀ d, IdentStart d ∨ Digit d → bytesChar none d = [d] := by
    intro d hd
    simp only [IdentStart, Digit] at hd
    unfold bytesChar
    rw [if_neg (by simp), if_neg (by omega), if_pos]
    simp only [isPrintable, Bool.and_eq_true, decide_eq_true_eq]
    omega
  have all : ∀ l : List Nat, (∀ d ∈ l, IdentStart d ∨ Digit d) → l.flatMap (bytesChar none) = l := by
    intro l
    induction l with
    | nil => exact fun _ => rfl
    | cons d l ih =>
      intro h
      rw [List.flatMap_cons, key d (h d (by simp)), ih fun e he => h e (by simp [he])]
      rfl
  cases t with
  | nil => rfl
  | cons c cs =>
    refine all _ fun d hd => ?_
    rcases List.mem_cons.1 hd with rfl | hd
    · exact .inl h.1
    · exact h.2 d hd

/-- The text of a symbol. -/
theorem symbolText_spec {t : Text} (h : SymSafe (.text t)) (suf : List Nat) : ∃ bs, symbolText t suf = .ok (bs ++ suf) ∧ IsSym bs (.text t) ∧ (IsMarkerText bs → IsMarkerText t) := by
  unfold symbolText
  rw [textOrError_unicode h.1]
  by_cases hq : needsQuotes t = true
  · simp only [hq, if_true]
    refine ⟨39 :: (t.flatMap (bytesChar (some 39)) ++ [39]), by simp [bytesText], .quoted _ _ (chars_text (.inr rfl) t h.1 (by simp)), ?_⟩
    rintro ⟨a, b, h1, -⟩
    simp [asc] at h1
  · simp only [hq, Bool.false_eq_true, if_false]
    simp only [needsQuotes, Bool.or_eq_true, decide_eq_true_eq, Bool.not_eq_true', not_or, Bool.not_eq_false] at hq
    have hid := (isIdentifier_iff t).1 hq.2
    refine ⟨t, by simp [bytesText, ident_plain hid], .ident t hid (fun hr => hq.1 ((keywords_reserved t).2 hr)) h.2, id⟩

theorem sid_text (n : Nat) : IsSym (36 :: natDigits n) (.sid n) := by
  obtain ⟨h1, h2, h3, -, -⟩ := natDigits_spec n
  have := IsSym.sid _ h2 h1
  rwa [h3] at this

theorem sid_not_marker (n : Nat) : ¬ IsMarkerText (36 :: natDigits n) := by
  rintro ⟨a, b, h, -⟩
  simp only [asc, List.map_cons, List.map_nil, List.cons_append, List.cons.injEq] at h
  have := (natDigits_spec n).1 105 (by rw [h.2]; simp)
  simp [Digit] at this

/-- A token. -/
theorem token_text {k : SymbolToken} {s : TSym} (hk : tokSym k = some s) (hs : SymSafe s) (suf : List Nat) :
    ∃ bs, serializeToken k suf = .ok (bs ++ suf) ∧ IsSym bs s ∧ (IsMarkerText bs → ∃ t, s = .text t ∧ IsMarkerText t) := by
  unfold tokSym at hk
  unfold serializeToken
  cases ht : k.text with
  | some t =>
    rw [ht] at hk
    simp only [Option.some.injEq] at hk
    subst hk
    obtain ⟨bs, h1, h2, h3⟩ := symbolText_spec hs suf
    exact ⟨bs, h1, h2, fun h => ⟨t, rfl, h3 h⟩⟩
  | none =>
    rw [ht] at hk
    simp only at hk
    cases hn : k.sid with
    | none => rw [hn] at hk; simp at hk
    | some n =>
      rw [hn] at hk
      simp only [Option.map_some, Option.some.injEq] at hk
      subst hk
      exact ⟨36 :: natDigits n, rfl, sid_text n, fun h => absurd h (sid_not_marker n)⟩

/-- A field name or an annotation. -/
theorem symArg_text {a : SymArg} {s : TSym} (ha : argSym a = some s) (hs : SymSafe s) (suf : List Nat) :
    ∃ bs, serializeSymArg a suf = .ok (bs ++ suf) ∧ IsSym bs s := by
  cases a with
  | text t =>
    simp only [argSym, Option.some.injEq] at ha
    subst ha
    obtain ⟨bs, h1, h2, -⟩ := symbolText_spec hs suf
    exact ⟨bs, h1, h2⟩
  | tok k =>
    obtain ⟨bs, h1, h2, -⟩ := token_text ha hs suf
    exact ⟨bs, h1, h2⟩

/-! ## Timestamps -/

theorem time_value {v : Scalars.TimeVal} (h : Scalars.RegularTime v) : ∃ p, IsTimeValue (timeValue v) p := by
  cases v with
  | ts t =>
    obtain ⟨⟨a, hnew⟩, hoff, hfr, hdate⟩ := h
    obtain ⟨hunit, hzn, hdig, hmic⟩ := Scalars.new_frac_facts hnew hfr.1
    have hv := (Timestamp.new_inv hnew).1
    unfold timeValue
    simp only
    generalize hp : t.precision.getD .second = p at *
    by_cases hs : p = .second
    · rw [if_pos hs]
      refine ⟨.second, rfl, hv, rfl, fun h => (by cases h), hdig, hunit, ?_, hmic, fun h => absurd rfl h⟩
      intro h0
      have : ¬ t.frac.exp > 0 := fun h => hzn ⟨h0, h⟩
      show t.frac.exp ≤ 0
      omega
    · rw [if_neg hs]
      have htz : (t.dt.cut p).tz = t.dt.tz := by cases p <;> rfl
      refine ⟨p, rfl, DateTime.cut_valid hv p, Scalars.DateTime_cut_cut _ _, ?_, rfl, rfl, fun _ => Int.le_refl 0, ?_, fun _ => rfl⟩
      · intro hm
        simp only [htz]
        rcases hdate with h | h
        · rw [hm] at h; cases h
        · exact h
      · cases p <;> first | exact absurd rfl hs | simp [DateTime.cut]
  | dt d =>
    obtain ⟨hv, hoff⟩ := h
    refine ⟨.second, rfl, hv, rfl, fun h => (by cases h), (by simp [timeValue]), ?_, ?_, ?_, fun h => absurd rfl h⟩
    · have := hv.2.2.2.2.2.2.2.2.2
      simp [timeValue, Dec.inUnit]
      exact this
    · simp [timeValue]
    · simp [timeValue]

theorem offset_text {tz : Option Int} (h : Scalars.OffsetOk tz) : IsOffsetText (utcOffset tz) tz := by
  cases tz with
  | none => exact .unknown
  | some o =>
    obtain ⟨h1, h2, h3⟩ := h o rfl
    simp only [minuteMicros, dayMicros] at h1 h2 h3
    unfold utcOffset
    by_cases h0 : o = 0
    · subst h0; exact .utc
    · simp only [if_neg h0]
      have hs : o.natAbs / 1000000 % 60 = 0 := by omega
      have hm : o.natAbs % 1000000 = 0 := by omega
      have hh : o.natAbs / 1000000 / 3600 < 24 := by omega
      have hmi : o.natAbs / 1000000 / 60 % 60 < 60 := by omega
      have hne : ¬ (o.natAbs / 1000000 % 60 ≠ 0 ∨ o.natAbs % 1000000 ≠ 0) := by omega
      simp only [hs, hm, ne_eq, not_true, or_self, if_false, List.append_nil]
      by_cases hn : o < 0
      · simp only [hn, if_true]
        have := IsOffsetText.minus _ _ hh hmi (by omega)
        rw [show (-((60 * (o.natAbs / 1000000 / 3600) + o.natAbs / 1000000 / 60 % 60 : Nat) * 60000000 : Int)) = o by omega] at this
        simpa using this
      · simp only [hn, if_false]
        have := IsOffsetText.plus _ _ hh hmi
        rw [show ((60 * (o.natAbs / 1000000 / 3600) + o.natAbs / 1000000 / 60 % 60 : Nat) * 60000000 : Int) = o by omega] at this
        simpa using this

theorem fraction_text {f : Dec} (hu : f.inUnit = true) (hz : f.coeff = 0 → f.exp ≤ 0) (hf : Scalars.FracOk f) (hs : f.sign = false) :
    IsFractionText (fractionStr f) f := by
  obtain ⟨sign, coeff, exp⟩ := f
  simp only at hz hs
  subst hs
  unfold fractionStr
  simp only
  by_cases h0 : coeff = 0 ∧ exp ≥ 0
  · rw [if_pos h0]
    have : exp = 0 := by have := hz h0.1; omega
    obtain ⟨rfl, -⟩ := h0
    subst this
    exact .none
  · rw [if_neg h0]
    obtain ⟨h1, h2, h3⟩ := hf
    simp only at h1 h2
    simp only [Dec.inUnit, Bool.not_false, Bool.or_true, Bool.true_and] at hu
    have hneg : exp < 0 := by
      by_cases h : exp ≥ 0
      · rw [if_pos h] at hu
        exact absurd ⟨by simpa using hu, h⟩ h0
      · omega
    rw [if_neg (by omega)] at hu
    simp only [decide_eq_true_eq] at hu
    obtain ⟨d1, d2, d3, -, -⟩ := natDigits_spec coeff
    have hlen := natDigits_length hu (by omega)
    have hl : (List.replicate (-exp - (natDigits coeff).length).toNat 48 ++ natDigits coeff).length = (-exp).toNat := by
      simp only [List.length_append, List.length_replicate]; omega
    have hnum : decNum (List.replicate (-exp - (natDigits coeff).length).toNat 48 ++ natDigits coeff) = coeff := by rw [decNum_zeros, d3]
    have := IsFractionText.digits (List.replicate (-exp - (natDigits coeff).length).toNat 48 ++ natDigits coeff) (by simp [d2])
      (digits_append (digits_zeros _) d1) (by rw [hnum]; exact h1) (by rw [hl]; omega)
    rw [hnum, hl, show -(((-exp).toNat : Nat) : Int) = exp by omega] at this
    exact this

theorem timestamp_text {v : Scalars.TimeVal} (h : TextTime v) : ∃ bs, datetimeStr v = .ok bs ∧ IsTimeText (timeValue v) bs := by
  cases v with
  | ts t =>
    obtain ⟨hr, ⟨p, hp, htz⟩, hs⟩ := h
    obtain ⟨q, hv⟩ := time_value hr
    have hq : q = p := by
      have := hv.precision
      simp only [timeValue, hp, Option.getD_some] at this
      split at this
      · next hps => simp only [Option.some.injEq] at this; rw [hps, ← this]
      · simp only [Option.some.injEq] at this; exact this.symm
    subst hq
    obtain ⟨-, hoff, hfr, -⟩ := hr
    simp only [datetimeStr, hp]
    refine ⟨_, rfl, ?_⟩
    cases q with
    | year =>
      have := IsTimeText.year hv (by simp only [timeValue, hp, Option.getD_some]; exact htz rfl)
      simpa [timeValue, hp, DateTime.cut, Precision.includesMonth, Precision.includesDay, Precision.includesMinute, Precision.includesSecond, Precision.toNat, Scalars.TimeVal.dateTime] using this
    | month =>
      have := IsTimeText.month hv (by simp only [timeValue, hp, Option.getD_some]; exact htz rfl)
      simpa [timeValue, hp, DateTime.cut, Precision.includesMonth, Precision.includesDay, Precision.includesMinute, Precision.includesSecond, Precision.toNat, Scalars.TimeVal.dateTime] using this
    | day =>
      have := IsTimeText.day [84] hv (by simp only [timeValue, hp, Option.getD_some]; exact htz rfl) (.inr rfl)
      simpa [timeValue, hp, DateTime.cut, Precision.includesMonth, Precision.includesDay, Precision.includesMinute, Precision.includesSecond, Precision.toNat, Scalars.TimeVal.dateTime] using this
    | minute =>
      have := IsTimeText.minute _ hv (by simp only [timeValue, hp, Option.getD_some]; exact offset_text hoff)
      simpa [timeValue, hp, DateTime.cut, Precision.includesMonth, Precision.includesDay, Precision.includesMinute, Precision.includesSecond, Precision.toNat, Scalars.TimeVal.dateTime] using this
    | second =>
      have hfrac : (timeValue (.ts t)).frac = t.frac := by simp [timeValue, hp]
      have htz' : (timeValue (.ts t)).dt.tz = t.dt.tz := by simp [timeValue, hp]
      have hu := hv.unit
      have hz := hv.zero
      rw [hfrac] at hu hz
      have := IsTimeText.second _ _ hv (by rw [hfrac]; exact fraction_text hu hz hfr hs) (by rw [htz']; exact offset_text hoff)
      simpa [timeValue, hp, Precision.includesMonth, Precision.includesDay, Precision.includesMinute, Precision.includesSecond, Precision.toNat, Scalars.TimeVal.dateTime] using this
  | dt d =>
    obtain ⟨q, hv⟩ := time_value (v := .dt d) h
    have hq : q = .second := by
      have := hv.precision
      simpa [timeValue] using this.symm
    subst hq
    obtain ⟨hvd, hoff⟩ := h
    simp only [datetimeStr]
    refine ⟨_, rfl, ?_⟩
    have hm : d.micro < 10 ^ 6 := hvd.2.2.2.2.2.2.2.2.2
    obtain ⟨f1, f2⟩ := decFixed_digits 6 d.micro
    have hfr := IsFractionText.digits (decFixed 6 d.micro) (by intro h; rw [h] at f2; simp at f2) f1 (by rw [decNum_decFixed 6 _ hm]; omega) (by omega)
    rw [decNum_decFixed 6 _ hm, f2] at hfr
    have := IsTimeText.second _ _ hv hfr (offset_text hoff)
    simpa [timeValue, Precision.includesMonth, Precision.includesDay, Precision.includesMinute, Precision.includesSecond, Precision.toNat, Scalars.TimeVal.dateTime] using this

/-! ## Scalars -/

theorem null_text (F : FloatText) (ty : IonType) : IsScalarText F (nullName ty) (.null ty) := by
  cases ty with
  | null => exact .null
  | bool => exact .typedNull .bool
  | int => exact .typedNull .int
  | float => exact .typedNull .float
  | decimal => exact .typedNull .decimal
  | timestamp => exact .typedNull .timestamp
  | symbol => exact .typedNull .symbol
  | string => exact .typedNull .string
  | clob => exact .typedNull .clob
  | blob => exact .typedNull .blob
  | list => exact .typedNull .list
  | sexp => exact .typedNull .sexp
  | struct => exact .typedNull .struct

theorem bool_text (F : FloatText) (b : Bool) : IsScalarText F (serializeBool b) (.bool b) := by
  cases b
  · exact .false_
  · exact .true_

theorem byteNums_unicode (b : Bytes) : IsUnicode (byteNums b) ∧ ∀ c ∈ byteNums b, c ≤ 255 := by
  have : ∀ c ∈ byteNums b, c ≤ 255 := by
    intro c hc
    simp only [byteNums, List.mem_map] at hc
    obtain ⟨x, _, rfl⟩ := hc
    have := x.toNat_lt
    omega
  refine ⟨fun c hc => ?_, this⟩
  have := this c hc
  exact ⟨by omega, by omega⟩

/-- Texts that are not markers because of their first character. -/
theorem not_marker {c : Nat} {r : List Nat} (h : c ≠ 36) : ¬ IsMarkerText (c :: r) := by
  rintro ⟨a, b, h1, -⟩
  simp only [asc, List.map_cons, List.cons_append, List.cons.injEq] at h1
  exact h h1.1

/-- A scalar value: what the writer writes for it. -/
theorem value_text {F : FloatText} (hF : Faithful F) {ty : IonType} {v : PyVal} {x : Spec.Scalar TSym} (hd : denote tokSym ty (some v) = some x)
    (hv : ValSafe v) (hs : ∀ s, x = .symbol s → SymSafe s) :
    ∃ bs, serializeValue F ty v = .ok bs ∧ IsScalarText F bs x ∧ ((∃ s, x = .symbol s) → IsMarkerText bs → ∃ t, x = .symbol (.text t) ∧ IsMarkerText t) := by
  cases ty <;> cases v <;> simp only [denote, Option.some.injEq, reduceCtorEq, Option.map_eq_some_iff] at hd <;> simp only [serializeValue]
  case bool.bool b => subst hd; exact ⟨_, rfl, bool_text F b, by rintro ⟨s, hs⟩; cases hs⟩
  case bool.int i =>
    subst hd
    exact ⟨_, rfl, bool_text F _, by rintro ⟨s, hs⟩; cases hs⟩
  case int.int i => subst hd; exact ⟨_, rfl, int_text F i, by rintro ⟨s, hs⟩; cases hs⟩
  case float.float bits => subst hd; exact ⟨_, rfl, float_text hF hv, by rintro ⟨s, hs⟩; cases hs⟩
  case decimal.decimal d => subst hd; exact ⟨_, rfl, decimal_text F d, by rintro ⟨s, hs⟩; cases hs⟩
  case timestamp.timestamp t =>
    subst hd
    obtain ⟨bs, h1, h2⟩ := timestamp_text hv
    exact ⟨bs, h1, .timestamp _ _ h2, by rintro ⟨s, hs⟩; cases hs⟩
  case symbol.sym k =>
    obtain ⟨s, hk, rfl⟩ := hd
    obtain ⟨bs, h1, h2, h3⟩ := token_text hk (hs s rfl) []
    rw [List.append_nil] at h1
    refine ⟨bs, h1, .symbol _ _ h2, fun _ hm => ?_⟩
    obtain ⟨t, rfl, ht⟩ := h3 hm
    exact ⟨t, rfl, ht⟩
  case string.str t =>
    subst hd
    rw [textOrError_unicode hv]
    have := IsScalarText.string (F := F) _ _ (chars_text (clob := false) (.inl rfl) t hv (by simp))
    exact ⟨_, rfl, by simpa [bytesText] using this, by rintro ⟨s, hs⟩; cases hs⟩
  case clob.bytes b =>
    subst hd
    obtain ⟨h1, h2⟩ := byteNums_unicode b
    have := IsScalarText.clob (F := F) [] _ [] _ b (by simp [IsBlank]) (chars_text (clob := true) (.inl rfl) (byteNums b) h1 (fun _ => h2)) (by simp [IsBlank]) rfl
    exact ⟨_, rfl, by simpa [bytesText] using this, by rintro ⟨s, hs⟩; cases hs⟩
  case blob.bytes b =>
    subst hd
    refine ⟨_, rfl, ?_, by rintro ⟨s, hs⟩; cases hs⟩
    have := IsScalarText.blob (F := F) _ b (spaced_refl _)
    rw [Base64.encode_eq _ (fun c hc => by have := (byteNums_unicode b).2 c hc; omega)]
    exact this

/-- Only symbols look like version markers. -/
theorem marker_symbol {F : FloatText} {bs : List Nat} {x : Spec.Scalar TSym} (h : IsScalarText F bs x) (hm : IsMarkerText bs) : ∃ s, x = .symbol s := by
  have hno : ∀ {neg : Bool} {l m : List Nat}, (∃ c r, l = c :: r ∧ c ≠ 36) → ¬ IsMarkerText (signText neg ++ (l ++ m)) := by
    rintro neg l m ⟨c, r, rfl, hc⟩
    cases neg
    · exact not_marker hc
    · exact not_marker (by decide)
  have hdig : ∀ {l : List Nat}, l ≠ [] → Digits l → ∃ c r, l = c :: r ∧ c ≠ 36 := by
    intro l hl hd
    cases l with
    | nil => exact absurd rfl hl
    | cons c r =>
      refine ⟨c, r, rfl, ?_⟩
      have := hd c (by simp)
      simp only [Digit] at this
      omega
  have huint : ∀ {l : List Nat}, IsUInt l → ∃ c r, l = c :: r ∧ c ≠ 36 := fun h => hdig (TextReader.uint_digits h).1 (TextReader.uint_digits h).2
  have hcoef : ∀ {co all : List Nat} {n : Nat}, IsCoefficient co all n → ∃ c r, co = c :: r ∧ c ≠ 36 := by
    intro co all n h
    cases h with
    | whole _ hd => exact huint hd
    | point ds fs hd _ =>
      obtain ⟨c, r, rfl, h1⟩ := huint hd
      exact ⟨c, _, rfl, h1⟩
  have hspell : ∀ {t l : List Nat}, Spelled t l → (∃ c r, l = c :: r ∧ c ≠ 36) → ∃ c r, t = c :: r ∧ c ≠ 36 := by
    rintro t l h ⟨c, r, rfl, hc⟩
    cases h with
    | cons _ t _ _ => exact ⟨c, t, rfl, hc⟩
    | under _ e a b t _ _ _ _ => exact ⟨c, _, rfl, hc⟩
  have hyear : ∀ (y : Nat) (m : List Nat), ¬ IsMarkerText (decFixed 4 y ++ m) := by
    intro y m
    obtain ⟨h1, h2⟩ := decFixed_digits 4 y
    have := hno (neg := false) (m := m) (hdig (by intro h; rw [h] at h2; simp at h2) h1)
    exact this
  cases h with
  | null => exact absurd hm (not_marker (by decide))
  | typedNull ty => exact absurd hm (not_marker (by decide))
  | true_ => exact absurd hm (not_marker (by decide))
  | false_ => exact absurd hm (not_marker (by decide))
  | int neg t ds hd hs => exact absurd hm (by simpa using hno (neg := neg) (m := []) (hspell hs (huint hd)))
  | radix neg base b t ds n hb hne hd hs => exact absurd hm (hno (l := [48]) ⟨48, [], rfl, by decide⟩)
  | float neg t co all n e ex i bits hco hs he hex hF => rw [List.append_assoc] at hm; exact absurd hm (hno (hspell hs (hcoef hco)))
  | nan => exact absurd hm (not_marker (by decide))
  | posInf => exact absurd hm (not_marker (by decide))
  | negInf => exact absurd hm (not_marker (by decide))
  | decimal neg t ds fs hd hfs hs =>
    obtain ⟨c, r, rfl, h1⟩ := huint hd
    exact absurd hm (by simpa using hno (neg := neg) (m := []) (hspell hs ⟨c, _, rfl, h1⟩))
  | decimalExp neg t co all n d ex i hco hs hd hex => rw [List.append_assoc] at hm; exact absurd hm (hno (hspell hs (hcoef hco)))
  | timestamp t _ ht => cases ht <;> (try simp only [List.append_assoc] at hm) <;> exact absurd hm (hyear _ _)
  | symbol _ s hs => exact ⟨s, rfl⟩
  | string bs t hb => exact absurd hm (not_marker (by decide))
  | clob w1 bs w2 t b hw1 hb hw2 ht => exact absurd hm (not_marker (by decide))
  | longString _ t hs =>
    cases hs with
    | one _ _ _ => exact absurd hm (not_marker (by decide))
    | more _ _ _ _ _ _ _ _ _ => exact absurd hm (not_marker (by decide))
  | longClob w1 bs w2 t b hw1 hb hw2 ht => exact absurd hm (not_marker (by decide))
  | blob t b hs => exact absurd hm (not_marker (by decide))

/-- A string ends with a double quote. -/
theorem string_value_text {F : FloatText} {ty : IonType} {v : PyVal} {t : Text} {bs : List Nat} (hd : denote tokSym ty (some v) = some (.string t))
    (hv : ValSafe v) (h : serializeValue F ty v = .ok bs) : ∃ l, bs = l ++ [34] := by
  cases ty <;> cases v <;> simp only [denote, Option.some.injEq, reduceCtorEq, Option.map_eq_some_iff, and_false, exists_false] at hd
  case string.str s =>
    simp only [serializeValue] at h
    rw [textOrError_unicode hv] at h
    simp only [Except.ok.injEq] at h
    exact ⟨_, by rw [← h]; simp only [bytesText, Option.toList, List.append_nil]; rfl⟩
end Ion.TextWriter
