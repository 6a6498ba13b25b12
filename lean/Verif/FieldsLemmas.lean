import Verif.Fields
/-! Helper lemmas about integer fields (no property statements here; see `Props/Fields.lean`). -/
namespace Ion.Fields
open Ion

theorem bitLength_pos {n : Nat} (h : n ≠ 0) : bitLength n = Nat.log2 n + 1 := by simp [bitLength, h]

theorem lt_two_pow_bitLength (n : Nat) : n < 2 ^ bitLength n := by
  unfold bitLength
  split
  · subst_vars; simp
  · exact Nat.lt_log2_self

theorem two_pow_le_of_bitLength {n : Nat} (h : n ≠ 0) : 2 ^ (bitLength n - 1) ≤ n := by
  rw [bitLength_pos h]; simpa using Nat.log2_self_le h

theorem bitLength_le_iff {n k : Nat} : bitLength n ≤ k ↔ n < 2 ^ k := by
  constructor
  · intro h
    exact Nat.lt_of_lt_of_le (lt_two_pow_bitLength n) (Nat.pow_le_pow_right (by decide) h)
  · intro h
    by_cases hn : n = 0
    · simp [hn, bitLength]
    · have := two_pow_le_of_bitLength hn
      have h2 : 2 ^ (bitLength n - 1) < 2 ^ k := by omega
      have := (Nat.pow_lt_pow_iff_right (a := 2) (by decide)).1 h2
      omega

/-- Big-endian octets after the first one, with the end marker on the last. -/
def octsTail (b e : Nat) : Nat → Nat → List Nat
  | 0, _ => []
  | k + 1, n => ((if k = 0 then e else 0) ||| (n / 2 ^ (b * k) % 2 ^ b)) :: octsTail b e k n

/-- Big-endian octets with sign marker on the first and end marker on the last. -/
def octs (b s e : Nat) : Nat → Nat → List Nat
  | 0, _ => []
  | k + 1, n => (s ||| (if k = 0 then e else 0) ||| (n / 2 ^ (b * k) % 2 ^ b)) :: octsTail b e k n

theorem map_octsTail (b e k n : Nat) :
    (List.range k).map (fun i => (if i = k - 1 then e else 0) ||| (n / 2 ^ (b * (k - 1 - i)) % 2 ^ b))
      = octsTail b e k n := by
  induction k with
  | zero => rfl
  | succ k ih =>
    rw [List.range_succ_eq_map, List.map_cons, List.map_map, octsTail, ← ih]
    congr 1
    · have : (0 = k + 1 - 1) = (k = 0) := by apply propext; constructor <;> intro h <;> omega
      by_cases hk : k = 0
      · subst hk; simp
      · rw [if_neg (by rw [this]; exact hk), if_neg hk]; simp
    · apply List.map_congr_left
      intro i hi
      have hi : i < k := by simpa using hi
      have h1 : (i + 1 = k + 1 - 1) = (i = k - 1) := by apply propext; omega
      have h2 : k + 1 - 1 - (i + 1) = k - 1 - i := by omega
      simp only [Function.comp, Nat.succ_eq_add_one, h1, h2]

/-- Number of octets the writer emits for a non-zero magnitude. -/
def numOctets (b : Nat) (signed : Bool) (n : Nat) : Nat :=
  if bitLength n % b ≠ 0 || signed then bitLength n / b + 1 else bitLength n / b

theorem and_octetMask (b x : Nat) (hb : b = 7 ∨ b = 8) : x &&& octetMask b = x % 2 ^ b := by
  rcases hb with rfl | rfl
  · exact Nat.and_two_pow_sub_one_eq_mod x 7
  · exact Nat.and_two_pow_sub_one_eq_mod x 8

theorem numOctets_pos (b : Nat) (hb : b = 7 ∨ b = 8) (signed : Bool) {n : Nat} (h : n ≠ 0) :
    0 < numOctets b signed n := by
  unfold numOctets
  have := bitLength_pos h
  split
  · exact Nat.succ_pos _
  · rename_i hh
    simp at hh
    have hd := Nat.div_add_mod (bitLength n) b
    rcases hb with rfl | rfl <;> omega

theorem writeBase_eq_octs {n : Nat} (b e s : Nat) (hb : b = 7 ∨ b = 8) (signed : Bool) (h : n ≠ 0) :
    writeBase n b e s signed = octs b s e (numOctets b signed n) n := by
  have hpos := numOctets_pos b hb signed h
  unfold writeBase
  simp only [h, if_false]
  have hk : (if bitLength n % b ≠ 0 || signed then (bitLength n / b + 1, bitLength n % b) else
      (bitLength n / b, b)).1 = numOctets b signed n := by
    unfold numOctets; split <;> rfl
  have hsh : ∀ i < numOctets b signed n,
      bitLength n - ((if bitLength n % b ≠ 0 || signed then (bitLength n / b + 1, bitLength n % b) else
      (bitLength n / b, b)).2 + b * i) = b * (numOctets b signed n - 1 - i) := by
    intro i hi
    unfold numOctets at hi ⊢
    have hd := Nat.div_add_mod (bitLength n) b
    split
    · rename_i hc
      simp only [hc, if_true] at hi
      simp only
      rw [Nat.mul_sub, Nat.mul_sub, Nat.mul_add]; omega
    · rename_i hc
      simp only [hc] at hi
      have hc' : bitLength n % b = 0 := by simp at hc; exact hc.1
      simp at hi
      simp only
      rw [Nat.mul_sub, Nat.mul_sub]; omega
  obtain ⟨k, hkk⟩ : ∃ k, numOctets b signed n = k + 1 := ⟨numOctets b signed n - 1, by omega⟩
  rw [hk]
  rw [hkk] at hsh ⊢
  rw [octs, ← map_octsTail, List.range_succ_eq_map, List.map_cons, List.map_map]
  congr 1
  · rw [hsh 0 (by omega), and_octetMask b _ hb, Nat.shiftRight_eq_div_pow]
    have : (0 = k + 1 - 1) = (k = 0) := by apply propext; constructor <;> intro h <;> omega
    simp only [this]
    by_cases hk0 : k = 0 <;> simp [hk0]
  · apply List.map_congr_left
    intro i hi
    have hi : i < k := by simpa using hi
    simp only [Function.comp, Nat.succ_eq_add_one]
    rw [hsh (i+1) (by omega), and_octetMask b _ hb, Nat.shiftRight_eq_div_pow]
    have h1 : (i + 1 = k + 1 - 1) = (i = k - 1) := by apply propext; omega
    have h2 : k + 1 - 1 - (i + 1) = k - 1 - i := by omega
    simp only [h1, h2]
    by_cases hc : i = k - 1 <;> simp [hc]

theorem lt_pow_numOctets (b : Nat) (hb : b = 7 ∨ b = 8) (signed : Bool) (n : Nat) :
    n < 2 ^ (b * numOctets b signed n) := by
  rw [← bitLength_le_iff]
  unfold numOctets
  rcases hb with rfl | rfl <;> split <;> rename_i hc <;> simp at hc <;> omega

/-- For signed fields the first octet leaves room for the sign bit. -/
theorem first_octet_lt (b : Nat) (hb : b = 7 ∨ b = 8) (n k : Nat) (hk : numOctets b true n = k + 1) :
    n / 2 ^ (b * k) < 2 ^ (b - 1) := by
  have h : n < 2 ^ (b * k + (b - 1)) := by
    rw [← bitLength_le_iff]
    unfold numOctets at hk
    simp at hk
    rcases hb with rfl | rfl <;> omega
  rw [Nat.pow_add] at h
  exact Nat.div_lt_of_lt_mul h

theorem octs_length (b s e k n : Nat) : (octs b s e k n).length = k := by
  have tail : ∀ k, (octsTail b e k n).length = k := by
    intro k; induction k with
    | zero => rfl
    | succ k ih => simp [octsTail, ih]
  cases k with
  | zero => rfl
  | succ k => simp [octs, tail]

theorem octs_zero_sign (b e k n : Nat) : octs b 0 e k n = octsTail b e k n := by
  cases k <;> simp [octs, octsTail]

/-! ### Bit facts about single octets -/

theorem or_128 {x : Nat} (h : x < 128) : 128 ||| x = x + 128 := by
  have := Nat.two_pow_add_eq_or_of_lt (i := 7) (b := x) (by simpa using h) 1
  simp at this; omega

theorem or_64 {x : Nat} (h : x < 64) : 64 ||| x = x + 64 := by
  have := Nat.two_pow_add_eq_or_of_lt (i := 6) (b := x) (by simpa using h) 1
  simp at this; omega

theorem and_7F (x : Nat) : x &&& 0x7F = x % 128 := Nat.and_two_pow_sub_one_eq_mod x 7
theorem and_3F (x : Nat) : x &&& 0x3F = x % 64 := Nat.and_two_pow_sub_one_eq_mod x 6

theorem and_pow_ne_zero (x i : Nat) : (x &&& 2 ^ i ≠ 0) ↔ x / 2 ^ i % 2 = 1 := by
  rw [← Nat.testBit_true_iff_and_pow_ne_zero_aux x i]
where
  Nat.testBit_true_iff_and_pow_ne_zero_aux (x i : Nat) : x / 2 ^ i % 2 = 1 ↔ (x &&& 2 ^ i ≠ 0) := by
    have : x.testBit i = decide (x / 2 ^ i % 2 = 1) := Nat.testBit_eq_decide_div_mod_eq
    rw [← decide_eq_true_iff (p := x / 2 ^ i % 2 = 1), ← this]
    constructor
    · intro h h0
      have := congrArg (fun y => Nat.testBit y i) h0
      simp [Nat.testBit_and, h, Nat.testBit_two_pow_self] at this
    · intro h
      cases hb : x.testBit i with
      | true => rfl
      | false =>
        exfalso; apply h
        apply Nat.eq_of_testBit_eq
        intro j
        rw [Nat.testBit_and, Nat.testBit_two_pow, Nat.zero_testBit]
        by_cases hj : i = j
        · subst hj; simp [hb]
        · simp [hj]

theorem and_80 (x : Nat) : (x &&& 0x80 ≠ 0) ↔ x / 128 % 2 = 1 := and_pow_ne_zero x 7
theorem and_40 (x : Nat) : (x &&& 0x40 ≠ 0) ↔ x / 64 % 2 = 1 := and_pow_ne_zero x 6

theorem shl_or (v x k : Nat) (h : x < 2 ^ k) : (v <<< k) ||| x = v * 2 ^ k + x := by
  rw [Nat.shiftLeft_eq, Nat.mul_comm, Nat.two_pow_add_eq_or_of_lt h]

theorem uint8_lt (b : UInt8) : b.toNat < 256 := b.toNat_lt

/-! ### Parsing what was written -/

theorem step_7 (v d : Nat) : v <<< 7 ||| (d &&& 0x7F) = v * 128 + d % 128 := by
  rw [and_7F, shl_or _ _ 7 (by omega)]

theorem mod_pow_succ' (n a k : Nat) :
    (n / 2 ^ (a * k) % 2 ^ a) * 2 ^ (a * k) + n % 2 ^ (a * k) = n % 2 ^ (a * (k + 1)) := by
  have : 2 ^ (a * (k+1)) = 2 ^ (a * k) * 2 ^ a := by rw [Nat.mul_add, Nat.pow_add]; simp
  rw [this, Nat.mod_mul]
  rw [Nat.mul_comm (n / _ % _)]; omega

theorem octsTail_bound (e b : Nat) (hb : b = 7 ∧ (e = 128 ∨ e = 0) ∨ b = 8 ∧ e = 0) (k n : Nat) :
    ∀ x ∈ octsTail b e k n, x < 256 := by
  induction k with
  | zero => simp [octsTail]
  | succ k ih =>
    intro x hx
    simp only [octsTail, List.mem_cons] at hx
    rcases hx with rfl | hx
    · rcases hb with ⟨rfl, rfl | rfl⟩ | ⟨rfl, rfl⟩
      · have : n / 2 ^ (7 * k) % 2 ^ 7 < 128 := Nat.mod_lt _ (by decide)
        split
        · rw [or_128 this]; omega
        · simp; omega
      · have : n / 2 ^ (7 * k) % 2 ^ 7 < 128 := Nat.mod_lt _ (by decide)
        simp; omega
      · have : n / 2 ^ (8 * k) % 2 ^ 8 < 256 := Nat.mod_lt _ (by decide)
        simp; omega
    · exact ih x hx

theorem parseVarLoop_octsTail (k n acc : Nat) (rest : Bytes) (hk : 0 < k) :
    parseVarLoop acc (toBytes (octsTail 7 128 k n) ++ rest) = .ok (acc * 2 ^ (7 * k) + n % 2 ^ (7 * k), rest) := by
  induction k generalizing acc with
  | zero => omega
  | succ k ih =>
    have hm : n / 2 ^ (7 * k) % 2 ^ 7 < 128 := Nat.mod_lt _ (by decide)
    have hs := mod_pow_succ' n 7 k
    simp only [octsTail, toBytes_cons, List.cons_append, parseVarLoop]
    by_cases h0 : k = 0
    · subst h0
      simp only [if_true]
      rw [or_128 hm, ofNat_toNat_of_lt (by omega), step_7]
      have hb : (n / 2 ^ (7 * 0) % 2 ^ 7 + 128) &&& 0x80 ≠ 0 := (and_80 _).2 (by omega)
      rw [if_pos hb]
      simp [octsTail]
    · simp only [h0, if_false, Nat.zero_or]
      rw [ofNat_toNat_of_lt (by omega), step_7]
      have hb : ¬ (n / 2 ^ (7 * k) % 2 ^ 7) &&& 0x80 ≠ 0 := by rw [and_80]; omega
      simp only [hb, if_false]
      rw [ih _ (by omega)]
      have e1 : 2 ^ (7 * (k + 1)) = 128 * 2 ^ (7 * k) := by rw [Nat.mul_add, Nat.pow_add]; omega
      rw [← hs, Nat.add_mul, Nat.mod_eq_of_lt (a := n / 2 ^ (7 * k) % 2 ^ 7) (b := 128) hm, e1,
        Nat.mul_assoc, Nat.add_assoc]

theorem foldl8_octsTail (k n acc : Nat) :
    (toBytes (octsTail 8 0 k n)).foldl (fun v ch => (v <<< 8) ||| ch.toNat) acc
      = acc * 2 ^ (8 * k) + n % 2 ^ (8 * k) := by
  induction k generalizing acc with
  | zero => simp [octsTail, Nat.mod_one]
  | succ k ih =>
    have hm : n / 2 ^ (8 * k) % 2 ^ 8 < 256 := Nat.mod_lt _ (by decide)
    have hs := mod_pow_succ' n 8 k
    simp only [octsTail, toBytes_cons, List.foldl_cons]
    have : (if k = 0 then 0 else 0) = 0 := by split <;> rfl
    rw [this, Nat.zero_or, ofNat_toNat_of_lt hm, shl_or _ _ 8 hm, ih]
    have e1 : 2 ^ (8 * (k + 1)) = 256 * 2 ^ (8 * k) := by rw [Nat.mul_add, Nat.pow_add]; omega
    rw [← hs, Nat.add_mul, e1, Nat.mul_assoc, Nat.add_assoc]

/-! ### Caches -/

theorem cachedVarUInts_get : ∀ v < cacheSize, [cachedVarUInts.getD v 0] = writeVarUIntUncached v := by decide +kernel
theorem cachedUInts_get : ∀ v < cacheSize, [cachedUInts.getD v 0] = writeUIntUncached v := by decide +kernel
theorem cachedInts_get : ∀ v < cacheSize, [cachedInts.getD v 0] = writeIntUncached (signedValue v) := by decide +kernel
theorem cachedVarInts_get : ∀ v < cacheSize, [cachedVarInts.getD v 0] = writeVarIntUncached (signedValue v) := by
  decide +kernel

theorem writeVarUInt_eq (n : Nat) : writeVarUInt n = writeVarUIntUncached n := by
  unfold writeVarUInt writeUnsigned
  split
  · exact cachedVarUInts_get n ‹_›
  · rfl
theorem writeUInt_eq (n : Nat) : writeUInt n = writeUIntUncached n := by
  unfold writeUInt writeUnsigned
  split
  · exact cachedUInts_get n ‹_›
  · rfl
theorem signed_cache (v : Int) (h : signedValue 0 ≤ v ∧ v < signedValue cacheSize) :
    signedIndex v < cacheSize ∧ signedValue (signedIndex v) = v := by
  simp only [signedValue, signedIndex, cacheSize] at *
  omega
theorem writeVarInt_eq (v : Int) : writeVarInt v = writeVarIntUncached v := by
  unfold writeVarInt writeSigned
  split
  · rename_i h
    have ⟨h1, h2⟩ := signed_cache v h
    rw [cachedVarInts_get _ h1, h2]
  · rfl
theorem writeInt_eq (v : Int) : writeInt v = writeIntUncached v := by
  unfold writeInt writeSigned
  split
  · rename_i h
    have ⟨h1, h2⟩ := signed_cache v h
    rw [cachedInts_get _ h1, h2]
  · rfl

/-! ### Round trips -/

theorem parseVarLoop_writeVarUInt (n : Nat) (rest : Bytes) :
    parseVarLoop 0 (toBytes (writeVarUInt n) ++ rest) = .ok (n, rest) := by
  rw [writeVarUInt_eq]
  unfold writeVarUIntUncached
  by_cases h : n = 0
  · subst h; simp [writeBase, parseVarLoop]
  · rw [writeBase_eq_octs 7 _ _ (by simp) _ h, octs_zero_sign,
      parseVarLoop_octsTail _ _ _ _ (numOctets_pos 7 (by simp) _ h)]
    rw [Nat.mod_eq_of_lt (lt_pow_numOctets 7 (by simp) _ n)]; simp

theorem writeVarUInt_length_pos (n : Nat) : 0 < (writeVarUInt n).length := by
  rw [writeVarUInt_eq]
  unfold writeVarUIntUncached
  by_cases h : n = 0
  · subst h; simp [writeBase]
  · rw [writeBase_eq_octs 7 _ _ (by simp) _ h, octs_length]; exact numOctets_pos 7 (by simp) _ h

theorem parseVarComponents_writeVarInt (v : Int) (rest : Bytes) :
    parseVarComponents (toBytes (writeVarInt v) ++ rest) true
      = .ok (if v < 0 then -1 else 1, v.natAbs, rest) := by
  rw [writeVarInt_eq]
  unfold writeVarIntUncached writeSignedUncached
  by_cases h : v.natAbs = 0
  · have : v = 0 := by omega
    subst this; simp [writeBase, parseVarComponents]
  · rw [writeBase_eq_octs 7 _ _ (by simp) _ h]
    obtain ⟨k, hk⟩ : ∃ k, numOctets 7 true v.natAbs = k + 1 := ⟨numOctets 7 true v.natAbs - 1, by
      have := numOctets_pos 7 (by simp) true h; omega⟩
    have hf := first_octet_lt 7 (by simp) _ _ hk
    have hlt := lt_pow_numOctets 7 (by simp) true v.natAbs
    rw [hk] at hlt ⊢
    simp only [octs, toBytes_cons, List.cons_append, parseVarComponents, if_true]
    generalize hn : v.natAbs = n at *
    have hd : n / 2 ^ (7 * k) % 2 ^ 7 = n / 2 ^ (7 * k) := Nat.mod_eq_of_lt (by omega)
    rw [hd]
    simp only [Nat.reduceSub, Nat.reducePow] at hf
    generalize hx : n / 2 ^ (7 * k) = x at *
    have hs := mod_pow_succ' n 7 k
    rw [hx, Nat.mod_eq_of_lt (a := x) (by omega), Nat.mod_eq_of_lt hlt] at hs
    have key : ∀ o, o = x + (if v < 0 then 64 else 0) + (if k = 0 then 128 else 0) →
        (if (UInt8.ofNat o).toNat &&& 0x80 ≠ 0 then
          Except.ok ((if (UInt8.ofNat o).toNat &&& 0x40 ≠ 0 then -1 else 1 : Int), (UInt8.ofNat o).toNat &&& 0x3F,
            toBytes (octsTail 7 128 k n) ++ rest)
        else do
          let (w, rest') ← parseVarLoop ((UInt8.ofNat o).toNat &&& 0x3F) (toBytes (octsTail 7 128 k n) ++ rest)
          pure ((if (UInt8.ofNat o).toNat &&& 0x40 ≠ 0 then -1 else 1 : Int), w, rest'))
        = Except.ok ((if v < 0 then -1 else 1 : Int), n, rest) := by
      intro o ho
      have ho256 : o < 256 := by (repeat' split at ho) <;> omega
      rw [ofNat_toNat_of_lt ho256, and_3F]
      have h3 : o % 64 = x := by (repeat' split at ho) <;> omega
      have h4 : (if o &&& 0x40 ≠ 0 then -1 else 1 : Int) = if v < 0 then -1 else 1 := by
        by_cases hv : v < 0
        · have : o &&& 0x40 ≠ 0 := (and_40 o).2 (by (repeat' split at ho) <;> omega)
          simp only [hv, if_true]; rw [if_pos this]
        · have : ¬ o &&& 0x40 ≠ 0 := by rw [and_40]; (repeat' split at ho) <;> omega
          simp only [hv, if_false]; rw [if_neg this]
      rw [h3, h4]
      by_cases hk0 : k = 0
      · have : o &&& 0x80 ≠ 0 := (and_80 o).2 (by (repeat' split at ho) <;> omega)
        rw [if_pos this]
        subst hk0
        simp [Nat.mod_one] at hs
        simp [octsTail, hs]
      · have : ¬ o &&& 0x80 ≠ 0 := by rw [and_80]; (repeat' split at ho) <;> omega
        rw [if_neg this, parseVarLoop_octsTail _ _ _ _ (by omega), hs]
        rfl
    apply key
    by_cases hv : v < 0 <;> by_cases hk0 : k = 0 <;> simp only [hv, hk0, if_true, if_false]
    · have : 64 ||| 128 ||| x = 128 ||| (64 ||| x) := by
        rw [Nat.or_comm 64 128, Nat.or_assoc]
      rw [this, or_64 hf, or_128 (by omega)]
    · simp only [Nat.or_zero]; rw [or_64 hf]
    · simp only [Nat.zero_or]; rw [or_128 (by omega)]
    · simp

theorem writeVarInt_length_pos (n : Int) : 0 < (writeVarInt n).length := by
  rw [writeVarInt_eq]
  unfold writeVarIntUncached writeSignedUncached
  by_cases h : n.natAbs = 0
  · rw [h]; simp [writeBase]
  · rw [writeBase_eq_octs 7 _ _ (by simp) _ h, octs_length]; exact numOctets_pos 7 (by simp) _ h

theorem parseSigned_writeInt (v : Int) :
    parseSignedIntComponents (toBytes (writeInt v)) = (if v < 0 then 1 else 0, v.natAbs) := by
  rw [writeInt_eq]
  unfold writeIntUncached writeSignedUncached
  by_cases h : v.natAbs = 0
  · have : v = 0 := by omega
    subst this; simp [writeBase, parseSignedIntComponents]
  · rw [writeBase_eq_octs 8 _ _ (by simp) _ h]
    obtain ⟨k, hk⟩ : ∃ k, numOctets 8 true v.natAbs = k + 1 := ⟨numOctets 8 true v.natAbs - 1, by
      have := numOctets_pos 8 (by simp) true h; omega⟩
    have hf := first_octet_lt 8 (by simp) _ _ hk
    have hlt := lt_pow_numOctets 8 (by simp) true v.natAbs
    rw [hk] at hlt ⊢
    simp only [octs, toBytes_cons, parseSignedIntComponents]
    generalize hn : v.natAbs = n at *
    have hd : n / 2 ^ (8 * k) % 2 ^ 8 = n / 2 ^ (8 * k) := Nat.mod_eq_of_lt (by omega)
    rw [hd]
    simp only [Nat.reduceSub, Nat.reducePow] at hf
    have hs := mod_pow_succ' n 8 k
    rw [hd, Nat.mod_eq_of_lt hlt] at hs
    generalize hx : n / 2 ^ (8 * k) = x at *
    have hz : (if k = 0 then 0 else 0) = 0 := by split <;> rfl
    rw [foldl8_octsTail, hz, Nat.or_zero]
    by_cases hv : v < 0
    · simp only [hv, if_true]
      rw [or_128 hf, ofNat_toNat_of_lt (by omega), and_7F]
      have : (x + 128) &&& 0x80 ≠ 0 := (and_80 _).2 (by omega)
      rw [if_pos this, show (x + 128) % 128 = x by omega, hs]
    · simp only [hv, if_false, Nat.zero_or]
      rw [ofNat_toNat_of_lt (by omega), and_7F]
      have : ¬ x &&& 0x80 ≠ 0 := by rw [and_80]; omega
      rw [if_neg this, show x % 128 = x by omega, hs]

theorem unpackBE_eq_foldl (l : Bytes) (acc : Nat) :
    l.foldl (fun v b => v * 256 + b.toNat) acc = acc * 256 ^ l.length + unpackBE l := by
  unfold unpackBE
  induction l generalizing acc with
  | nil => simp
  | cons a l ih =>
    simp only [List.foldl_cons, List.length_cons]
    rw [ih (acc * 256 + a.toNat), ih (0 * 256 + a.toNat), Nat.pow_succ, Nat.add_mul]
    simp; rw [Nat.mul_assoc, Nat.mul_comm 256]; omega

theorem unpackBE_append (a b : Bytes) : unpackBE (a ++ b) = unpackBE a * 256 ^ b.length + unpackBE b := by
  conv => lhs; unfold unpackBE
  rw [List.foldl_append, unpackBE_eq_foldl]; rfl

theorem unpackBE_lt (l : Bytes) : unpackBE l < 256 ^ l.length := by
  induction l with
  | nil => simp [unpackBE]
  | cons a l ih =>
    have := unpackBE_append [a] l
    simp only [List.singleton_append] at this
    have h1 : unpackBE [a] = a.toNat := by simp [unpackBE]
    rw [this, h1, List.length_cons, Nat.pow_succ]
    have := uint8_lt a
    calc a.toNat * 256 ^ l.length + unpackBE l < a.toNat * 256 ^ l.length + 256 ^ l.length := by omega
      _ = (a.toNat + 1) * 256 ^ l.length := by rw [Nat.add_mul]; simp
      _ ≤ 256 * 256 ^ l.length := Nat.mul_le_mul_right _ (by omega)
      _ = _ := Nat.mul_comm _ _

theorem rslice_step (data : Bytes) (length size : Nat) (h1 : size ≤ length) (h2 : length ≤ data.length) :
    data.take (data.length - (length - size)) = data.take (data.length - length) ++ rslice data length size := by
  unfold rslice
  have : data.length - (length - size) = (data.length - length) + size := by omega
  rw [this, List.take_add]

theorem seg_step (data : Bytes) (length size k : Nat) (hk : 2 ^ k = 256 ^ size) (h1 : size ≤ length)
    (h2 : length ≤ data.length) :
    (unpackBE (data.take (data.length - length)) <<< k) ||| unpackBE (rslice data length size)
      = unpackBE (data.take (data.length - (length - size))) := by
  have hl : (rslice data length size).length = size := by simp [rslice]; omega
  rw [rslice_step data length size h1 h2, unpackBE_append, hl, shl_or, hk]
  rw [hk]; have := unpackBE_lt (rslice data length size); rwa [hl] at this

theorem intLoop8_spec (data : Bytes) (length : Nat) (h : length ≤ data.length) :
    (intLoop8 data (unpackBE (data.take (data.length - length))) length).2 < 8 ∧
    (intLoop8 data (unpackBE (data.take (data.length - length))) length).2 ≤ data.length ∧
    (intLoop8 data (unpackBE (data.take (data.length - length))) length).1
      = unpackBE (data.take (data.length - (intLoop8 data (unpackBE (data.take (data.length - length))) length).2)) := by
  induction length using Nat.strongRecOn with
  | _ length ih =>
    rw [intLoop8]
    split
    · rw [seg_step data length 8 64 (by decide) (by omega) h]
      exact ih (length - 8) (by omega) (by omega)
    · exact ⟨by omega, h, rfl⟩

theorem parseInt_eq (sign : Int) (data : Bytes) : parseInt sign data = sign * (unpackBE data : Int) := by
  unfold parseInt
  have h := intLoop8_spec data data.length (Nat.le_refl _)
  simp only [Nat.sub_self, List.take_zero] at h
  have e0 : unpackBE [] = 0 := rfl
  rw [e0] at h
  generalize intLoop8 data 0 data.length = p at h
  obtain ⟨v, l⟩ := p
  simp only at h ⊢
  obtain ⟨hl8, hle, rfl⟩ := h
  congr 1
  have s4 : (if l ≥ 4 then ((unpackBE (List.take (data.length - l) data)) <<< 32 ||| unpackBE (rslice data l 4), l - 4)
      else (unpackBE (List.take (data.length - l) data), l))
      = (unpackBE (List.take (data.length - (if l ≥ 4 then l - 4 else l)) data), if l ≥ 4 then l - 4 else l) := by
    split
    · rw [seg_step data l 4 32 (by decide) (by omega) hle]
    · rfl
  rw [s4]
  generalize hl' : (if l ≥ 4 then l - 4 else l) = l'
  have hl4 : l' < 4 := by split at hl' <;> omega
  have hle' : l' ≤ data.length := by split at hl' <;> omega
  simp only
  have s2 : (if l' ≥ 2 then ((unpackBE (List.take (data.length - l') data)) <<< 16 ||| unpackBE (rslice data l' 2), l' - 2)
      else (unpackBE (List.take (data.length - l') data), l'))
      = (unpackBE (List.take (data.length - (if l' ≥ 2 then l' - 2 else l')) data), if l' ≥ 2 then l' - 2 else l') := by
    split
    · rw [seg_step data l' 2 16 (by decide) (by omega) hle']
    · rfl
  rw [s2]
  generalize hl'' : (if l' ≥ 2 then l' - 2 else l') = l''
  have hl2 : l'' < 2 := by split at hl'' <;> omega
  have hle'' : l'' ≤ data.length := by split at hl'' <;> omega
  simp only
  split
  · rename_i h1
    rw [h1] at hle'' ⊢
    have hne : data ≠ [] := by intro h; simp [h] at hle''
    have hlast : (data.getLast?.map UInt8.toNat).getD 0 = unpackBE (rslice data 1 1) := by
      have hlen := hle''
      have : rslice data 1 1 = [data.getLast hne] := by
        unfold rslice
        conv => lhs; rw [← List.dropLast_concat_getLast hne]
        rw [List.drop_append_of_le_length (by simp)]
        simp [List.drop_eq_nil_of_le]
      rw [this, List.getLast?_eq_some_getLast hne]; simp [unpackBE]
    rw [hlast, seg_step data 1 1 8 (by decide) (by omega) hle'']
    simp
  · have : l'' = 0 := by omega
    simp [this]

theorem unpackBE_octs (k n : Nat) : unpackBE (toBytes (octsTail 8 0 k n)) = n % 2 ^ (8 * k) := by
  have h := foldl8_octsTail k n 0
  have e : ∀ (l : Bytes) acc, l.foldl (fun v ch => (v <<< 8) ||| ch.toNat) acc
      = l.foldl (fun v b => v * 256 + b.toNat) acc := by
    intro l
    induction l with
    | nil => simp
    | cons a l ih =>
      intro acc
      simp only [List.foldl_cons]
      rw [shl_or _ _ 8 (uint8_lt a)]; exact ih _
  rw [e] at h
  unfold unpackBE
  rw [h]; simp

theorem unpackBE_writeUInt (n : Nat) : unpackBE (toBytes (writeUInt n)) = n := by
  rw [writeUInt_eq]
  unfold writeUIntUncached
  by_cases h : n = 0
  · subst h; simp [writeBase, unpackBE]
  · rw [writeBase_eq_octs 8 _ _ (by simp) _ h, octs_zero_sign, unpackBE_octs,
      Nat.mod_eq_of_lt (lt_pow_numOctets 8 (by simp) _ n)]

theorem writeUInt_length_pos (n : Nat) : 0 < (writeUInt n).length := by
  rw [writeUInt_eq]
  unfold writeUIntUncached
  by_cases h : n = 0
  · subst h; simp [writeBase]
  · rw [writeBase_eq_octs 8 _ _ (by simp) _ h, octs_length]; exact numOctets_pos 8 (by simp) _ h

theorem writeInt_length_pos (n : Int) : 0 < (writeInt n).length := by
  rw [writeInt_eq]
  unfold writeIntUncached writeSignedUncached
  by_cases h : n.natAbs = 0
  · rw [h]; simp [writeBase]
  · rw [writeBase_eq_octs 8 _ _ (by simp) _ h, octs_length]; exact numOctets_pos 8 (by simp) _ h

/-- Parsing a list of VarUInts. -/
theorem parseSids_write (sids : List Nat) (fuel : Nat)
    (hf : (sids.flatMap fun s => toBytes (writeVarUInt s)).length ≤ fuel) :
    parseSids fuel (sids.flatMap fun s => toBytes (writeVarUInt s)) = .ok sids := by
  induction sids generalizing fuel with
  | nil => cases fuel <;> simp [parseSids]
  | cons s sids ih =>
    simp only [List.flatMap_cons] at hf ⊢
    rw [List.length_append, toBytes_length] at hf
    have hp := writeVarUInt_length_pos s
    have hne : toBytes (writeVarUInt s) ≠ [] := by
      intro h; have := congrArg List.length h; simp at this; rw [this] at hp; simp at hp
    cases fuel with
    | zero => omega
    | succ fuel =>
      obtain ⟨b, bs, hb⟩ := List.exists_cons_of_ne_nil hne
      have hpl := parseVarLoop_writeVarUInt s (sids.flatMap fun s => toBytes (writeVarUInt s))
      rw [hb] at hpl ⊢
      simp only [List.cons_append] at hpl ⊢
      simp only [parseSids]
      rw [hpl]
      simp only [bind, Except.bind]
      rw [ih fuel (by omega)]
      rfl

end Ion.Fields
