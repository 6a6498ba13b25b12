import Verif.Basic
/-!
# UTF-8

Part of the model of the runtime: Python's strict `utf-8` codec (RFC 3629 / Unicode table 3-7), on code point lists.
-/
namespace Ion.Utf8
open Ion

/-- `chr(c).encode('utf-8')`: surrogates are refused. -/
def encodeCP (c : Nat) : Except PyErr (List Nat) :=
  if c < 0x80 then .ok [c]
  else if c < 0x800 then .ok [0xC0 + c / 64, 0x80 + c % 64]
  else if c < 0x10000 then
    if 0xD800 ≤ c ∧ c ≤ 0xDFFF then .error .unicodeError
    else .ok [0xE0 + c / 4096, 0x80 + c / 64 % 64, 0x80 + c % 64]
  else if c ≤ 0x10FFFF then .ok [0xF0 + c / 262144, 0x80 + c / 4096 % 64, 0x80 + c / 64 % 64, 0x80 + c % 64]
  else .error .unicodeError

/-- `text.encode('utf-8')`. -/
def encode : Text → Except PyErr Bytes
  | [] => .ok []
  | c :: t => do
    let b ← encodeCP c
    let bs ← encode t
    return toBytes b ++ bs

/-- A continuation byte. -/
abbrev isCont (b : UInt8) : Prop := 0x80 ≤ b.toNat ∧ b.toNat < 0xC0

/-- Decode the first code point of non-empty data. -/
def decodeFirst : Bytes → Except PyErr (Nat × Bytes)
  | [] => .error .unicodeError
  | b0 :: rest =>
    let a := b0.toNat
    if a < 0x80 then .ok (a, rest)
    else if a < 0xC2 then .error .unicodeError
    else if a < 0xE0 then
      match rest with
      | b1 :: rest => if isCont b1 then .ok ((a - 0xC0) * 64 + (b1.toNat - 0x80), rest) else .error .unicodeError
      | _ => .error .unicodeError
    else if a < 0xF0 then
      match rest with
      | b1 :: b2 :: rest =>
        let c := (a - 0xE0) * 4096 + (b1.toNat - 0x80) * 64 + (b2.toNat - 0x80)
        if isCont b1 ∧ isCont b2 ∧ 0x800 ≤ c ∧ ¬ (0xD800 ≤ c ∧ c ≤ 0xDFFF) then .ok (c, rest)
        else .error .unicodeError
      | _ => .error .unicodeError
    else if a < 0xF5 then
      match rest with
      | b1 :: b2 :: b3 :: rest =>
        let c := (a - 0xF0) * 262144 + (b1.toNat - 0x80) * 4096 + (b2.toNat - 0x80) * 64 + (b3.toNat - 0x80)
        if isCont b1 ∧ isCont b2 ∧ isCont b3 ∧ 0x10000 ≤ c ∧ c ≤ 0x10FFFF then .ok (c, rest)
        else .error .unicodeError
      | _ => .error .unicodeError
    else .error .unicodeError

theorem decodeFirst_lt {d : Bytes} {c rest} (h : decodeFirst d = .ok (c, rest)) : rest.length < d.length := by
  unfold decodeFirst at h
  split at h
  · simp at h
  · simp only at h
    split at h
    · simp at h; rw [← h.2]; simp
    split at h
    · simp at h
    split at h
    · split at h
      · split at h
        · simp at h; rw [← h.2]; simp; omega
        · simp at h
      · simp at h
    split at h
    · split at h
      · split at h
        · simp at h; rw [← h.2]; simp; omega
        · simp at h
      · simp at h
    split at h
    · split at h
      · split at h
        · simp at h; rw [← h.2]; simp; omega
        · simp at h
      · simp at h
    · simp at h

/-- `data.decode('utf-8')`. -/
def decode (d : Bytes) : Except PyErr Text :=
  match d with
  | [] => .ok []
  | b :: d =>
    match h : decodeFirst (b :: d) with
    | .error e => .error e
    | .ok (c, rest) =>
      have := decodeFirst_lt h
      match decode rest with
      | .error e => .error e
      | .ok t => .ok (c :: t)
termination_by d.length

/-- Unicode scalar values, the code points that have a UTF-8 form. -/
def Scalar (c : Nat) : Prop := c ≤ 0x10FFFF ∧ ¬ (0xD800 ≤ c ∧ c ≤ 0xDFFF)

instance (c : Nat) : Decidable (Scalar c) := by unfold Scalar; infer_instance

theorem toNat_ofNat_lt {n : Nat} (h : n < 256) : (UInt8.ofNat n).toNat = n := ofNat_toNat_of_lt h

theorem encodeCP_ok_iff (c : Nat) : (∃ b, encodeCP c = .ok b) ↔ Scalar c := by
  unfold encodeCP Scalar
  constructor
  · rintro ⟨b, h⟩
    repeat' split at h
    all_goals first
      | (simp at h; done)
      | omega
  · rintro ⟨h1, h2⟩
    repeat' split
    all_goals first
      | exact ⟨_, rfl⟩
      | omega

theorem encodeCP_lt {c : Nat} {b : List Nat} (h : encodeCP c = .ok b) : ∀ x ∈ b, x < 256 := by
  unfold encodeCP at h
  repeat' split at h
  all_goals first
    | (simp at h; done)
    | (simp at h; subst h; intro x hx; simp at hx; omega)

theorem encodeCP_ne_nil {c : Nat} {b : List Nat} (h : encodeCP c = .ok b) : b ≠ [] := by
  unfold encodeCP at h
  repeat' split at h
  all_goals first
    | (simp at h; done)
    | (simp at h; subst h; simp)

theorem decodeFirst_encodeCP {c : Nat} {b : List Nat} (h : encodeCP c = .ok b) (rest : Bytes) :
    decodeFirst (toBytes b ++ rest) = .ok (c, rest) := by
  unfold encodeCP at h
  split at h
  · simp at h; subst h
    have e0 := toNat_ofNat_lt (n := c) (by omega)
    simp only [toBytes_cons, toBytes_nil, List.cons_append, List.nil_append]
    generalize UInt8.ofNat c = b0 at *
    simp only [decodeFirst]
    rw [if_pos (by omega), e0]
  · split at h
    · simp at h; subst h
      have e0 := toNat_ofNat_lt (n := 0xC0 + c / 64) (by omega)
      have e1 := toNat_ofNat_lt (n := 0x80 + c % 64) (by omega)
      simp only [toBytes_cons, toBytes_nil, List.cons_append, List.nil_append]
      generalize UInt8.ofNat (0xC0 + c / 64) = b0 at *
      generalize UInt8.ofNat (0x80 + c % 64) = b1 at *
      simp only [decodeFirst]
      rw [if_neg (by omega), if_neg (by omega), if_pos (by omega), if_pos (by omega)]
      simp; omega
    · split at h
      · split at h
        · simp at h
        · simp at h; subst h
          have e0 := toNat_ofNat_lt (n := 0xE0 + c / 4096) (by omega)
          have e1 := toNat_ofNat_lt (n := 0x80 + c / 64 % 64) (by omega)
          have e2 := toNat_ofNat_lt (n := 0x80 + c % 64) (by omega)
          simp only [toBytes_cons, toBytes_nil, List.cons_append, List.nil_append]
          generalize UInt8.ofNat (0xE0 + c / 4096) = b0 at *
          generalize UInt8.ofNat (0x80 + c / 64 % 64) = b1 at *
          generalize UInt8.ofNat (0x80 + c % 64) = b2 at *
          simp only [decodeFirst]
          rw [if_neg (by omega), if_neg (by omega), if_neg (by omega), if_pos (by omega), if_pos (by omega)]
          simp; omega
      · split at h
        · simp at h; subst h
          have e0 := toNat_ofNat_lt (n := 0xF0 + c / 262144) (by omega)
          have e1 := toNat_ofNat_lt (n := 0x80 + c / 4096 % 64) (by omega)
          have e2 := toNat_ofNat_lt (n := 0x80 + c / 64 % 64) (by omega)
          have e3 := toNat_ofNat_lt (n := 0x80 + c % 64) (by omega)
          simp only [toBytes_cons, toBytes_nil, List.cons_append, List.nil_append]
          generalize UInt8.ofNat (0xF0 + c / 262144) = b0 at *
          generalize UInt8.ofNat (0x80 + c / 4096 % 64) = b1 at *
          generalize UInt8.ofNat (0x80 + c / 64 % 64) = b2 at *
          generalize UInt8.ofNat (0x80 + c % 64) = b3 at *
          simp only [decodeFirst]
          rw [if_neg (by omega), if_neg (by omega), if_neg (by omega), if_neg (by omega), if_pos (by omega),
            if_pos (by omega)]
          simp; omega
        · simp at h

theorem decode_cons_ok {d : Bytes} {c rest} (h : decodeFirst d = .ok (c, rest)) :
    decode d = match decode rest with
      | .error e => .error e
      | .ok t => .ok (c :: t) := by
  cases d with
  | nil => simp [decodeFirst] at h
  | cons b d =>
    rw [decode]
    split
    · rename_i h'; rw [h] at h'; cases h'
    · rename_i h'; rw [h] at h'; cases h'; rfl

/-- Decoding an encoded text gives the text. -/
theorem decode_encode (t : Text) (b : Bytes) (h : encode t = .ok b) : decode b = .ok t := by
  induction t generalizing b with
  | nil => simp [encode] at h; subst h; rw [decode]
  | cons c t ih =>
    simp only [encode, bind, Except.bind, pure, Except.pure] at h
    split at h
    · cases h
    · rename_i b1 h1
      split at h
      · cases h
      · rename_i b2 h2
        simp at h; subst h
        rw [decode_cons_ok (decodeFirst_encodeCP h1 b2), ih b2 h2]

/-- Exactly the texts without surrogates can be encoded. -/
theorem encode_ok_iff (t : Text) : (∃ b, encode t = .ok b) ↔ ∀ c ∈ t, Scalar c := by
  induction t with
  | nil => simp [encode]
  | cons c t ih =>
    simp only [encode, bind, Except.bind, pure, Except.pure]
    constructor
    · rintro ⟨b, h⟩
      split at h
      · cases h
      · rename_i b1 h1
        split at h
        · cases h
        · rename_i b2 h2
          intro c' hc'
          rcases List.mem_cons.mp hc' with rfl | hc'
          · exact (encodeCP_ok_iff c').mp ⟨b1, h1⟩
          · exact ih.mp ⟨b2, h2⟩ c' hc'
    · intro h
      obtain ⟨b1, h1⟩ := (encodeCP_ok_iff c).mpr (h c (by simp))
      obtain ⟨b2, h2⟩ := ih.mpr (fun c' hc' => h c' (by simp [hc']))
      exact ⟨toBytes b1 ++ b2, by simp [h1, h2]⟩

theorem encode_ne_nil {c : Nat} {t : Text} {b : Bytes} (h : encode (c :: t) = .ok b) : b ≠ [] := by
  simp only [encode, bind, Except.bind, pure, Except.pure] at h
  split at h
  · cases h
  · rename_i b1 h1
    split at h
    · cases h
    · simp at h; subst h
      have := encodeCP_ne_nil h1
      cases b1 with
      | nil => exact absurd rfl this
      | cons a l => simp

theorem encode_error {t : Text} {e : PyErr} (h : encode t = .error e) : e = .unicodeError := by
  induction t with
  | nil => simp [encode] at h
  | cons c t ih =>
    simp only [encode, bind, Except.bind, pure, Except.pure] at h
    split at h
    · rename_i e1 h1
      cases h
      unfold encodeCP at h1
      repeat' split at h1
      all_goals first
        | (simp at h1; done)
        | (simp at h1; exact h1.symm)
    · split at h
      · rename_i e2 h2; cases h; exact ih h2
      · cases h

/-- What decodes is the encoding of the result: no two byte strings decode to one text. -/
theorem encode_decode (d : Bytes) (t : Text) (h : decode d = .ok t) : encode t = .ok d := by
  have first : ∀ (d : Bytes) c rest, decodeFirst d = .ok (c, rest) →
      ∃ b, encodeCP c = .ok b ∧ d = toBytes b ++ rest := by
    intro d c rest h
    have ofn : ∀ (b : UInt8) (n : Nat), n = b.toNat → UInt8.ofNat n = b := by
      intro b n e; subst e; simp
    unfold decodeFirst at h
    split at h
    · simp at h
    · rename_i b0 rest0
      simp only at h
      have hb0 : b0.toNat < 256 := b0.toNat_lt
      split at h
      · simp at h; obtain ⟨rfl, rfl⟩ := h
        refine ⟨[b0.toNat], by unfold encodeCP; rw [if_pos (by assumption)], by simp⟩
      · split at h
        · simp at h
        · split at h
          · split at h
            · rename_i b1 rest1
              split at h
              · rename_i hc
                simp at h; obtain ⟨rfl, rfl⟩ := h
                refine ⟨[b0.toNat, b1.toNat], ?_, by simp⟩
                unfold encodeCP
                rw [if_neg (by omega), if_pos (by omega)]
                simp; omega
              · simp at h
            · simp at h
          · split at h
            · split at h
              · rename_i b1 b2 rest2
                split at h
                · rename_i hc
                  simp at h; obtain ⟨rfl, rfl⟩ := h
                  refine ⟨[b0.toNat, b1.toNat, b2.toNat], ?_, by simp⟩
                  unfold encodeCP
                  rw [if_neg (by omega), if_neg (by omega), if_pos (by omega), if_neg (by omega)]
                  simp; omega
                · simp at h
              · simp at h
            · split at h
              · split at h
                · rename_i b1 b2 b3 rest3
                  split at h
                  · rename_i hc
                    simp at h; obtain ⟨rfl, rfl⟩ := h
                    refine ⟨[b0.toNat, b1.toNat, b2.toNat, b3.toNat], ?_, by simp⟩
                    unfold encodeCP
                    rw [if_neg (by omega), if_neg (by omega), if_neg (by omega), if_pos (by omega)]
                    simp; omega
                  · simp at h
                · simp at h
              · simp at h
  induction hn : d.length using Nat.strongRecOn generalizing d t with
  | _ n ih =>
    cases d with
    | nil => rw [decode] at h; simp at h; subst h; rfl
    | cons b d =>
      cases hf : decodeFirst (b :: d) with
      | error e =>
        rw [decode] at h
        simp only at h
        split at h
        · cases h
        · rename_i h'; rw [hf] at h'; cases h'
      | ok p =>
        obtain ⟨c, rest⟩ := p
        rw [decode_cons_ok hf] at h
        have hlt := decodeFirst_lt hf
        cases hr : decode rest with
        | error e => simp [hr] at h
        | ok t' =>
          simp [hr] at h
          subst h
          obtain ⟨b', h1, h2⟩ := first _ _ _ hf
          have := ih rest.length (by omega) rest t' hr rfl
          simp only [encode, h1, this, bind, Except.bind, pure, Except.pure, h2]

end Ion.Utf8
