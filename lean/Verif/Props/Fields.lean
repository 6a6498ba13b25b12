import Verif.FieldsLemmas
/-!
# Properties C01–C04: integer fields

The specification below is the Ion 1.0 binary definition of the four kinds of integer field, written independently of
the code: what octet sequences are fields, and which number each denotes.
-/
namespace Ion.Fields.Spec
open Ion

/-- The number denoted by octets in base 128, ignoring each octet's high bit. -/
def base128 : Nat → Bytes → Nat
  | acc, [] => acc
  | acc, b :: bs => base128 (acc * 128 + b.toNat % 128) bs

/-- The number denoted by octets in base 256. -/
def base256 : Nat → Bytes → Nat
  | acc, [] => acc
  | acc, b :: bs => base256 (acc * 256 + b.toNat) bs

/-- A self-delimiting field: the high bit is set on the last octet and on no other. -/
inductive Delimited : Bytes → Prop
  | last (b : UInt8) : 128 ≤ b.toNat → Delimited [b]
  | more (b : UInt8) (bs : Bytes) : b.toNat < 128 → Delimited bs → Delimited (b :: bs)

/-- `bs` is a VarUInt field that denotes `n`. -/
def IsVarUInt (bs : Bytes) (n : Nat) : Prop := Delimited bs ∧ base128 0 bs = n

/-- `bs` is a VarInt field that denotes sign `neg` and magnitude `n`: in the first octet bit 6 is the sign. -/
def IsVarInt (bs : Bytes) (neg : Bool) (n : Nat) : Prop :=
  Delimited bs ∧ ∃ b rest, bs = b :: rest ∧ neg = decide (64 ≤ b.toNat % 128) ∧ base128 (b.toNat % 64) rest = n

/-- `bs` is a UInt field that denotes `n` (its length comes from elsewhere). -/
def IsUInt (bs : Bytes) (n : Nat) : Prop := bs ≠ [] ∧ base256 0 bs = n

/-- `bs` is an Int field that denotes sign `neg` and magnitude `n`: in the first octet bit 7 is the sign. -/
def IsInt (bs : Bytes) (neg : Bool) (n : Nat) : Prop :=
  ∃ b rest, bs = b :: rest ∧ neg = decide (128 ≤ b.toNat) ∧ base256 (b.toNat % 128) rest = n

end Ion.Fields.Spec

namespace Ion.Fields
open Ion Spec

/-! Auxiliary facts that link the specification to the model. -/

theorem parseVarLoop_delimited {bs : Bytes} (h : Delimited bs) (acc : Nat) (rest : Bytes) :
    parseVarLoop acc (bs ++ rest) = .ok (base128 acc bs, rest) := by
  induction h generalizing acc with
  | last b hb =>
    simp only [List.cons_append, List.nil_append, parseVarLoop]
    rw [if_pos ((and_80 _).2 (by have := uint8_lt b; omega)), step_7]; rfl
  | more b bs hb _ ih =>
    simp only [List.cons_append, parseVarLoop]
    rw [if_neg (by rw [and_80]; omega), step_7, ih]; rfl

private theorem base128_lt (bs : Bytes) (acc : Nat) : base128 acc bs < (acc + 1) * 128 ^ bs.length := by
  induction bs generalizing acc with
  | nil => simp [base128]
  | cons b bs ih =>
    have h := ih (acc * 128 + b.toNat % 128)
    simp only [base128, List.length_cons, Nat.pow_succ]
    have : acc * 128 + b.toNat % 128 + 1 ≤ (acc + 1) * 128 := by omega
    calc _ < _ := h
      _ ≤ (acc + 1) * 128 * 128 ^ bs.length := Nat.mul_le_mul_right _ this
      _ = _ := by rw [Nat.mul_assoc, Nat.mul_comm 128]

private theorem base256_lt (bs : Bytes) (acc : Nat) : base256 acc bs < (acc + 1) * 256 ^ bs.length := by
  induction bs generalizing acc with
  | nil => simp [base256]
  | cons b bs ih =>
    have h := ih (acc * 256 + b.toNat)
    simp only [base256, List.length_cons, Nat.pow_succ]
    have : acc * 256 + b.toNat + 1 ≤ (acc + 1) * 256 := by have := uint8_lt b; omega
    calc _ < _ := h
      _ ≤ (acc + 1) * 256 * 256 ^ bs.length := Nat.mul_le_mul_right _ this
      _ = _ := by rw [Nat.mul_assoc, Nat.mul_comm 256]

private theorem base256_eq (bs : Bytes) (acc : Nat) :
    base256 acc bs = bs.foldl (fun v ch => v * 256 + ch.toNat) acc := by
  induction bs generalizing acc with
  | nil => rfl
  | cons b bs ih => exact ih _

private theorem base256_eq' (bs : Bytes) (acc : Nat) :
    base256 acc bs = bs.foldl (fun v ch => (v <<< 8) ||| ch.toNat) acc := by
  induction bs generalizing acc with
  | nil => rfl
  | cons b bs ih =>
    simp only [base256, List.foldl_cons]
    rw [shl_or _ _ 8 (uint8_lt b)]; exact ih _

private theorem delimited_octsTail (k n : Nat) (hk : 0 < k) : Delimited (toBytes (octsTail 7 128 k n)) := by
  induction k with
  | zero => omega
  | succ k ih =>
    have hm : n / 2 ^ (7 * k) % 2 ^ 7 < 128 := Nat.mod_lt _ (by decide)
    simp only [octsTail, toBytes_cons]
    by_cases h0 : k = 0
    · subst h0
      simp only [if_true, octsTail, toBytes_nil]
      rw [or_128 hm]
      exact .last _ (by rw [ofNat_toNat_of_lt (by omega)]; omega)
    · simp only [h0, if_false, Nat.zero_or]
      exact .more _ _ (by rw [ofNat_toNat_of_lt (by omega)]; omega) (ih (by omega))

private theorem delimited_writeVarInt (v : Int) : Delimited (toBytes (writeVarInt v)) := by
  rw [writeVarInt_eq]
  unfold writeVarIntUncached writeSignedUncached
  by_cases h : v.natAbs = 0
  · have : v = 0 := by omega
    subst this; exact .last _ (by simp)
  · rw [writeBase_eq_octs 7 _ _ (by simp) _ h]
    obtain ⟨k, hk⟩ : ∃ k, numOctets 7 true v.natAbs = k + 1 := ⟨numOctets 7 true v.natAbs - 1, by
      have := numOctets_pos 7 (by simp) true h; omega⟩
    have hf := first_octet_lt 7 (by simp) _ _ hk
    rw [hk]
    simp only [octs, toBytes_cons]
    have hd : v.natAbs / 2 ^ (7 * k) % 2 ^ 7 = v.natAbs / 2 ^ (7 * k) := Nat.mod_eq_of_lt (by simp at hf; omega)
    rw [hd]
    simp only [Nat.reduceSub, Nat.reducePow] at hf
    generalize v.natAbs / 2 ^ (7 * k) = x at *
    by_cases h0 : k = 0
    · subst h0
      simp only [if_true, octsTail, toBytes_nil]
      by_cases hv : v < 0
      · simp only [hv, if_true]
        rw [Nat.or_comm 64, Nat.or_assoc, or_64 hf, or_128 (by omega)]
        exact .last _ (by rw [ofNat_toNat_of_lt (by omega)]; omega)
      · simp only [hv, if_false, Nat.zero_or]
        rw [or_128 (by omega)]
        exact .last _ (by rw [ofNat_toNat_of_lt (by omega)]; omega)
    · simp only [h0, if_false, Nat.or_zero]
      refine .more _ _ ?_ (delimited_octsTail _ _ (by omega))
      by_cases hv : v < 0
      · simp only [hv, if_true]; rw [or_64 hf, ofNat_toNat_of_lt (by omega)]; omega
      · simp only [hv, if_false, Nat.zero_or]; rw [ofNat_toNat_of_lt (by omega)]; omega

private theorem octet_lt (b : Nat) (s e : Nat) (hb : b = 7 ∧ s ≤ 64 ∧ (s = 64 ∨ s = 0) ∧ (e = 128 ∨ e = 0) ∨
    b = 8 ∧ e = 0 ∧ (s = 128 ∨ s = 0)) (k n : Nat) : ∀ o ∈ octs b s e k n, o < 256 := by
  intro o ho
  cases k with
  | zero => simp [octs] at ho
  | succ k =>
    simp only [octs, List.mem_cons] at ho
    rcases ho with rfl | ho
    · have h1 : s < 256 := by omega
      have h2 : (if k = 0 then e else 0) < 256 := by split <;> omega
      have h3 : n / 2 ^ (b * k) % 2 ^ b < 256 := by
        have : n / 2 ^ (b * k) % 2 ^ b < 2 ^ b := Nat.mod_lt _ (Nat.two_pow_pos b)
        rcases hb with hb | hb <;> (rw [hb.1] at this; rw [hb.1]; omega)
      exact Nat.or_lt_two_pow (n := 8) (Nat.or_lt_two_pow (n := 8) h1 h2) h3
    · exact octsTail_bound e b (by omega) k n o ho

/-! ## C01 — integer fields denote the number written and are read back -/

/-- **C01** Every VarUInt the writer emits denotes the value by the Ion specification, and the reader, whatever bytes
follow, returns that value and stops exactly at its end. -/
theorem C01_varuint (n : Nat) (rest : Bytes) :
    IsVarUInt (toBytes (writeVarUInt n)) n ∧
    parseVar (toBytes (writeVarUInt n) ++ rest) false = .ok ((n : Int), rest) := by
  have hd : Delimited (toBytes (writeVarUInt n)) := by
    rw [writeVarUInt_eq]
    unfold writeVarUIntUncached
    by_cases h : n = 0
    · subst h; exact .last _ (by simp)
    · rw [writeBase_eq_octs 7 _ _ (by simp) _ h, octs_zero_sign]
      exact delimited_octsTail _ _ (numOctets_pos 7 (by simp) _ h)
  have hp := parseVarLoop_writeVarUInt n rest
  refine ⟨⟨hd, ?_⟩, ?_⟩
  · have := parseVarLoop_delimited hd 0 rest
    rw [hp] at this
    simp at this; exact this.symm
  · unfold parseVar parseVarComponents
    simp [hp, bind, Except.bind, pure, Except.pure]

/-- **C01** Every VarInt the writer emits denotes the value, and the reader returns it and stops at its end. -/
theorem C01_varint (v : Int) (rest : Bytes) :
    IsVarInt (toBytes (writeVarInt v)) (decide (v < 0)) v.natAbs ∧
    parseVar (toBytes (writeVarInt v) ++ rest) true = .ok (v, rest) := by
  have hp := parseVarComponents_writeVarInt v rest
  have hd := delimited_writeVarInt v
  refine ⟨⟨hd, ?_⟩, ?_⟩
  · cases hb : toBytes (writeVarInt v) with
    | nil => rw [hb] at hd; cases hd
    | cons b bs =>
      refine ⟨b, bs, rfl, ?_⟩
      rw [hb] at hp hd
      simp only [List.cons_append, parseVarComponents, if_true] at hp
      have h40 : (b.toNat &&& 0x40 ≠ 0) ↔ 64 ≤ b.toNat % 128 := by rw [and_40]; omega
      have sgn : ∀ (p q : Prop) [Decidable p] [Decidable q],
          ((if p then -1 else 1 : Int) = if q then -1 else 1) → decide q = decide p := by
        intro p q _ _ h
        by_cases hp : p <;> by_cases hq : q <;> simp_all
      cases hd with
      | last _ hb128 =>
        rw [if_pos ((and_80 _).2 (by have := uint8_lt b; omega)), and_3F] at hp
        simp only [List.nil_append, Except.ok.injEq, Prod.mk.injEq] at hp
        refine ⟨?_, by simpa [base128] using hp.2.1⟩
        rw [sgn _ _ hp.1]; exact decide_eq_decide.2 h40
      | more _ _ hb128 hds =>
        rw [if_neg (by rw [and_80]; omega), and_3F, parseVarLoop_delimited hds] at hp
        simp only [bind, Except.bind, pure, Except.pure, Except.ok.injEq, Prod.mk.injEq] at hp
        refine ⟨?_, by simpa [base128] using hp.2.1⟩
        rw [sgn _ _ hp.1]; exact decide_eq_decide.2 h40
  · unfold parseVar
    rw [hp]
    simp only [bind, Except.bind, pure, Except.pure, Except.ok.injEq, Prod.mk.injEq, and_true]
    split <;> omega

/-- **C01** Every UInt the writer emits denotes the value, and the integer body parser returns it with either sign. -/
theorem C01_uint (n : Nat) (sign : Int) :
    IsUInt (toBytes (writeUInt n)) n ∧ parseInt sign (toBytes (writeUInt n)) = sign * n := by
  have h := unpackBE_writeUInt n
  refine ⟨⟨?_, ?_⟩, ?_⟩
  · intro h0
    have := writeUInt_length_pos n
    have := congrArg List.length h0
    simp at this; simp_all
  · rw [base256_eq]; exact h
  · rw [parseInt_eq, h]

/-- **C01** Every Int the writer emits denotes the value, and the signed-body parser returns its sign and magnitude. -/
theorem C01_int (v : Int) :
    IsInt (toBytes (writeInt v)) (decide (v < 0)) v.natAbs ∧
    parseSignedIntComponents (toBytes (writeInt v)) = (if v < 0 then 1 else 0, v.natAbs) := by
  have hp := parseSigned_writeInt v
  refine ⟨?_, hp⟩
  cases hb : toBytes (writeInt v) with
  | nil =>
    have := writeInt_length_pos v
    have := congrArg List.length hb
    simp at this; simp_all
  | cons b bs =>
    refine ⟨b, bs, rfl, ?_⟩
    rw [hb] at hp
    simp only [parseSignedIntComponents, Prod.mk.injEq] at hp
    rw [base256_eq', ← and_7F]
    refine ⟨?_, hp.2⟩
    have h80 : (b.toNat &&& 0x80 ≠ 0) ↔ 128 ≤ b.toNat := by rw [and_80]; have := uint8_lt b; omega
    have hp1 := hp.1
    by_cases hv : v < 0
    · simp only [hv, if_true] at hp1
      have : b.toNat &&& 0x80 ≠ 0 := by
        apply Classical.byContradiction; intro hc; rw [if_neg hc] at hp1; omega
      simp [hv, h80.1 this]
    · simp only [hv, if_false] at hp1
      have : ¬ b.toNat &&& 0x80 ≠ 0 := by intro hc; rw [if_pos hc] at hp1; omega
      have : ¬ 128 ≤ b.toNat := fun h => this (h80.2 h)
      simp [hv, this]

/-- **C01** No octet handed to `bytearray.append` is out of range, so no writer of integer fields raises. -/
theorem C01_octets_in_range (v : Int) (n : Nat) :
    (∀ o ∈ writeVarUInt n, o < 256) ∧ (∀ o ∈ writeUInt n, o < 256) ∧
    (∀ o ∈ writeVarInt v, o < 256) ∧ (∀ o ∈ writeInt v, o < 256) := by
  rw [writeVarUInt_eq, writeUInt_eq, writeVarInt_eq, writeInt_eq]
  unfold writeVarUIntUncached writeUIntUncached writeVarIntUncached writeIntUncached writeSignedUncached
  refine ⟨?_, ?_, ?_, ?_⟩
  · by_cases h : n = 0
    · subst h; simp [writeBase]
    · rw [writeBase_eq_octs 7 _ _ (by simp) _ h]; exact octet_lt 7 _ _ (by simp) _ _
  · by_cases h : n = 0
    · subst h; simp [writeBase]
    · rw [writeBase_eq_octs 8 _ _ (by simp) _ h]; exact octet_lt 8 _ _ (by simp) _ _
  · by_cases h : v.natAbs = 0
    · have : v = 0 := by omega
      subst this; simp [writeBase]
    · rw [writeBase_eq_octs 7 _ _ (by simp) _ h]; exact octet_lt 7 _ _ (by split <;> simp) _ _
  · by_cases h : v.natAbs = 0
    · have : v = 0 := by omega
      subst this; simp [writeBase]
    · rw [writeBase_eq_octs 8 _ _ (by simp) _ h]; exact octet_lt 8 _ _ (by split <;> simp) _ _

-- tests: concrete multi-octet cases
example : writeVarUInt 300 = [0x02, 0xAC] := by decide +kernel
example : writeVarInt (-729) = [0x45, 0xD9] := by decide +kernel
example : writeInt (-128) = [0x80, 0x80] := by decide +kernel

/-! ## C02 — the fields are minimal -/

private theorem numOctets_le (b n k : Nat) (hb : b = 7 ∨ b = 8) (h : n ≠ 0) (hlt : n < 2 ^ (b * k)) :
    numOctets b false n ≤ k := by
  rw [← bitLength_le_iff] at hlt
  unfold numOctets
  rcases hb with rfl | rfl <;> split <;> rename_i hc <;> simp at hc <;> omega

private theorem numOctets_signed_le (b n k : Nat) (hb : b = 7 ∨ b = 8) (hlt : n < 2 ^ (b * k + (b - 1))) :
    numOctets b true n ≤ k + 1 := by
  rw [← bitLength_le_iff] at hlt
  unfold numOctets
  simp only [Bool.or_true, if_true]
  rcases hb with rfl | rfl <;> omega

private theorem delimited_ne_nil {bs : Bytes} (h : Delimited bs) : 0 < bs.length := by cases h <;> simp

/-- **C02** No VarUInt field that denotes the same number is shorter than the one written. -/
theorem C02_varuint (n : Nat) (bs : Bytes) (h : IsVarUInt bs n) : (writeVarUInt n).length ≤ bs.length := by
  rw [writeVarUInt_eq]
  unfold writeVarUIntUncached
  by_cases h0 : n = 0
  · subst h0; have := delimited_ne_nil h.1; simp [writeBase]; omega
  · rw [writeBase_eq_octs 7 _ _ (by simp) _ h0, octs_length]
    apply numOctets_le 7 _ _ (by simp) h0
    have := base128_lt bs 0
    rw [h.2] at this
    rwa [Nat.pow_mul, show 2 ^ 7 = 128 from rfl, ← Nat.one_mul (128 ^ _)]

/-- **C02** No UInt field that denotes the same number is shorter than the one written. -/
theorem C02_uint (n : Nat) (bs : Bytes) (h : IsUInt bs n) : (writeUInt n).length ≤ bs.length := by
  rw [writeUInt_eq]
  unfold writeUIntUncached
  by_cases h0 : n = 0
  · subst h0; have := List.length_pos_iff.2 h.1; simp [writeBase]; omega
  · rw [writeBase_eq_octs 8 _ _ (by simp) _ h0, octs_length]
    apply numOctets_le 8 _ _ (by simp) h0
    have := base256_lt bs 0
    rw [h.2] at this
    rwa [Nat.pow_mul, show 2 ^ 8 = 256 from rfl, ← Nat.one_mul (256 ^ _)]

/-- **C02** No VarInt field that denotes the same magnitude is shorter than the one written. -/
theorem C02_varint (v : Int) (bs : Bytes) (neg : Bool) (h : IsVarInt bs neg v.natAbs) :
    (writeVarInt v).length ≤ bs.length := by
  obtain ⟨_, b, rest, rfl, _, hv⟩ := h
  rw [writeVarInt_eq]
  unfold writeVarIntUncached writeSignedUncached
  by_cases h0 : v.natAbs = 0
  · simp [h0, writeBase]
  · rw [writeBase_eq_octs 7 _ _ (by simp) _ h0, octs_length]
    apply numOctets_signed_le 7 _ _ (by simp)
    have h1 := base128_lt rest (b.toNat % 64)
    rw [hv] at h1
    have h2 : b.toNat % 64 + 1 ≤ 64 := by omega
    calc v.natAbs < _ := h1
      _ ≤ 64 * 128 ^ rest.length := Nat.mul_le_mul_right _ h2
      _ = _ := by rw [Nat.pow_add, Nat.pow_mul, Nat.mul_comm]

/-- **C02** No Int field that denotes the same magnitude is shorter than the one written. -/
theorem C02_int (v : Int) (bs : Bytes) (neg : Bool) (h : IsInt bs neg v.natAbs) :
    (writeInt v).length ≤ bs.length := by
  obtain ⟨b, rest, rfl, _, hv⟩ := h
  rw [writeInt_eq]
  unfold writeIntUncached writeSignedUncached
  by_cases h0 : v.natAbs = 0
  · simp [h0, writeBase]
  · rw [writeBase_eq_octs 8 _ _ (by simp) _ h0, octs_length]
    apply numOctets_signed_le 8 _ _ (by simp)
    have h1 := base256_lt rest (b.toNat % 128)
    rw [hv] at h1
    have h2 : b.toNat % 128 + 1 ≤ 128 := by omega
    calc v.natAbs < _ := h1
      _ ≤ 128 * 256 ^ rest.length := Nat.mul_le_mul_right _ h2
      _ = _ := by rw [Nat.pow_add, Nat.pow_mul, Nat.mul_comm]

/-- A padded VarUInt is a valid but longer field: the hypothesis of `C02_varuint` has more than one solution. -/
example : IsVarUInt [0x00, 0x02, 0xAC] 300 ∧ (writeVarUInt 300).length = 2 :=
  ⟨⟨.more _ _ (by decide) (.more _ _ (by decide) (.last _ (by decide))), by decide⟩, by decide +kernel⟩

/-! ## C03 — the caches are transparent -/

/-- **C03** Through the cache or around it, the same octets are written, for every value; and whenever the cache is
consulted the index is in range (so the fallback `getD _ 0` of the model is never used). -/
theorem C03_cache_transparent (v : Int) (n : Nat) :
    writeVarUInt n = writeVarUIntUncached n ∧ writeUInt n = writeUIntUncached n ∧
    writeVarInt v = writeVarIntUncached v ∧ writeInt v = writeIntUncached v :=
  ⟨writeVarUInt_eq n, writeUInt_eq n, writeVarInt_eq v, writeInt_eq v⟩

theorem C03_cache_index_in_range (v : Int) (h : signedValue 0 ≤ v ∧ v < signedValue cacheSize) :
    signedIndex v < cachedInts.length ∧ signedIndex v < cachedVarInts.length := by
  have := (signed_cache v h).1
  have h1 : cachedInts.length = cacheSize := by decide +kernel
  have h2 : cachedVarInts.length = cacheSize := by decide +kernel
  omega

theorem C03_cache_index_in_range_unsigned (n : Nat) (h : n < cacheSize) :
    n < cachedUInts.length ∧ n < cachedVarUInts.length := by
  have h1 : cachedUInts.length = cacheSize := by decide +kernel
  have h2 : cachedVarUInts.length = cacheSize := by decide +kernel
  omega

example : signedValue 0 ≤ -32 ∧ (-32 : Int) < signedValue cacheSize := by decide

/-! ## C04 — every field, minimal or padded, is decoded to the number it denotes -/

/-- **C04** Integer bodies of any length are the big-endian number they spell. -/
theorem C04_parse_int (sign : Int) (data : Bytes) : parseInt sign data = sign * (base256 0 data : Int) := by
  rw [parseInt_eq, base256_eq]; rfl

/-- **C04** Any VarUInt, padded or not, decodes to the number it denotes. -/
theorem C04_parse_varuint (bs : Bytes) (n : Nat) (rest : Bytes) (h : IsVarUInt bs n) :
    parseVar (bs ++ rest) false = .ok ((n : Int), rest) := by
  unfold parseVar parseVarComponents
  simp [parseVarLoop_delimited h.1, h.2, bind, Except.bind, pure, Except.pure]

/-- **C04** Any VarInt, padded or not, decodes to sign and magnitude (negative zero included). -/
theorem C04_parse_varint (bs : Bytes) (neg : Bool) (n : Nat) (rest : Bytes) (h : IsVarInt bs neg n) :
    parseVarComponents (bs ++ rest) true = .ok (if neg then -1 else 1, n, rest) := by
  obtain ⟨hd, b, bs', rfl, hneg, hv⟩ := h
  have h40 : (b.toNat &&& 0x40 ≠ 0) ↔ 64 ≤ b.toNat % 128 := by rw [and_40]; omega
  have hs : (if b.toNat &&& 0x40 ≠ 0 then -1 else 1 : Int) = if neg then -1 else 1 := by
    subst hneg
    by_cases hc : 64 ≤ b.toNat % 128
    · rw [if_pos (h40.2 hc)]; simp [hc]
    · rw [if_neg (fun h => hc (h40.1 h))]; simp [hc]
  simp only [List.cons_append, parseVarComponents, if_true]
  rw [hs, and_3F]
  cases hd with
  | last _ hb =>
    rw [if_pos ((and_80 _).2 (by have := uint8_lt b; omega))]
    simp only [base128] at hv
    simp [hv]
  | more _ _ hb hds =>
    rw [if_neg (by rw [and_80]; omega), parseVarLoop_delimited hds, hv]
    rfl

/-- **C04** Any Int body decodes to sign and magnitude. -/
theorem C04_parse_signed (bs : Bytes) (neg : Bool) (n : Nat) (h : IsInt bs neg n) :
    parseSignedIntComponents bs = (if neg then 1 else 0, n) := by
  obtain ⟨b, bs', rfl, hneg, hv⟩ := h
  simp only [parseSignedIntComponents]
  rw [← base256_eq', and_7F, hv]
  have h80 : (b.toNat &&& 0x80 ≠ 0) ↔ 128 ≤ b.toNat := by rw [and_80]; have := uint8_lt b; omega
  subst hneg
  by_cases hc : 128 ≤ b.toNat
  · rw [if_pos (h80.2 hc)]; simp [hc]
  · rw [if_neg (fun h => hc (h80.1 h))]; simp [hc]

/-- A VarUInt cut short (no octet with the high bit set) is never taken for a number. -/
theorem C04_truncated_varuint (bs : Bytes) (h : ∀ b ∈ bs, b.toNat < 128) :
    parseVar bs false = .error .typeError := by
  have key : ∀ (l : Bytes) acc, (∀ b ∈ l, b.toNat < 128) → parseVarLoop acc l = .error .typeError := by
    intro l
    induction l with
    | nil => intros; rfl
    | cons b l ih =>
      intro acc hl
      simp only [parseVarLoop]
      have hb := hl b (by simp)
      rw [if_neg (by rw [and_80]; omega)]
      exact ih _ (fun x hx => hl x (by simp [hx]))
  unfold parseVar parseVarComponents
  simp [key bs 0 h, bind, Except.bind]

example : IsVarInt [0x40, 0x80] true 0 :=
  ⟨.more _ _ (by decide) (.last _ (by decide)), _, _, rfl, by decide, by decide⟩
example : ∀ b ∈ ([0x01, 0x02] : Bytes), b.toNat < 128 := by decide

end Ion.Fields
