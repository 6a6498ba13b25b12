import Verif.RawReaderValues
set_option linter.unusedSimpArgs false
/-!
# Facts about the binary encoding: the first octets of a value determine its length

Needed to say that a proper prefix of a value is not itself a sequence of values (C25).
-/
namespace Ion.Spec
open Ion Ion.Fields Ion.Fields.Spec Ion.Scalars.Spec Ion.RawReader

/-- `v` is one top-level value (no padding around it). -/
inductive IsValue : Bytes → Node Nat → Prop
  | scalar (inner v : Bytes) (ann : List Nat) (x : Scalar Nat) : IsScalar inner x → Wrapped ann inner v →
      IsValue v (.scalar none ann x)
  | cont (body inner v : Bytes) (ann : List Nat) (ty : CType) (children : List (Node Nat)) (ordered : Bool) :
      IsItems (ty = .struct) body children →
      (ordered = true → (children.map fun c => c.field.getD 0).Pairwise (· ≤ ·)) →
      FramedContainer ty ordered inner body → Wrapped ann inner v → IsValue v (.cont none ann ty children)

/-- The number of octets of the first value, padding or version marker, as its first octets tell. -/
def extent : Bytes → Option Nat
  | [] => none
  | h :: r =>
    if h.toNat = 0xE0 then some 4
    else if h.toNat % 16 = 15 ∨ h.toNat = 0x11 then some 1
    else if h.toNat % 16 = 14 ∨ h.toNat = 0xD1 then
      match parseVarLoop 0 r with
      | .ok (n, rest) => some (1 + (r.length - rest.length) + n)
      | .error _ => none
    else some (1 + h.toNat % 16)

theorem parseVarLoop_mono {r rest s : Bytes} {v n : Nat} (h : parseVarLoop v r = .ok (n, rest)) :
    parseVarLoop v (r ++ s) = .ok (n, rest ++ s) ∧ rest.length ≤ r.length := by
  induction r generalizing v with
  | nil => simp [parseVarLoop] at h
  | cons c r ih =>
    simp only [parseVarLoop] at h
    simp only [List.cons_append, parseVarLoop]
    split at h
    · rename_i hc
      simp only [Except.ok.injEq, Prod.mk.injEq] at h
      obtain ⟨h1, rfl⟩ := h
      rw [if_pos hc]
      simp [h1]
    · rename_i hc
      rw [if_neg hc]
      have := ih h
      exact ⟨this.1, by simp; omega⟩

theorem extent_mono {a b : Bytes} {k : Nat} (h : extent a = some k) : extent (a ++ b) = some k := by
  cases a with
  | nil => simp [extent] at h
  | cons c a =>
    simp only [extent, List.cons_append] at h ⊢
    split at h
    · rename_i h1; rw [if_pos h1]; exact h
    rename_i h1; rw [if_neg h1]
    split at h
    · rename_i h2; rw [if_pos h2]; exact h
    rename_i h2; rw [if_neg h2]
    split at h
    · rename_i h3
      rw [if_pos h3]
      cases hp : parseVarLoop 0 a with
      | error e => rw [hp] at h; simp at h
      | ok x =>
        obtain ⟨n, rest⟩ := x
        rw [hp] at h
        have hm := parseVarLoop_mono (s := b) hp
        rw [hm.1]
        simp only [List.length_append, Option.some.injEq] at h ⊢
        omega
    · rename_i h3; rw [if_neg h3]; exact h

theorem extent_long {h : UInt8} {len body r : Bytes} (h1 : h.toNat ≠ 0xE0) (h2 : ¬(h.toNat % 16 = 15 ∨ h.toNat = 0x11))
    (h3 : h.toNat % 16 = 14 ∨ h.toNat = 0xD1) (hl : IsVarUInt len body.length) :
    extent (h :: (len ++ body) ++ r) = some (h :: (len ++ body)).length := by
  simp only [extent, List.cons_append]
  rw [if_neg h1, if_neg h2, if_pos h3, List.append_assoc, parseVarLoop_delimited hl.1, hl.2]
  simp only [List.length_append, List.length_cons, Option.some.injEq]
  omega

theorem framed_extent {t : Nat} {bs body : Bytes} (ht : t ≤ 14) (ht1 : t ≠ 1) (h0 : t = 14 → body ≠ []) (h1 : t = 13 → body.length ≠ 1)
    (h : Framed t bs body) (r : Bytes) : extent (bs ++ r) = some bs.length := by
  cases h with
  | short h _ hl hh =>
    have : t = 14 → body.length ≠ 0 := fun hx => by have := h0 hx; simp [this]
    simp only [extent, List.cons_append]
    rw [if_neg (by omega), if_neg (by omega), if_neg (by omega)]
    simp only [List.length_cons, Option.some.injEq]
    omega
  | long h len _ hh hl => exact extent_long (by omega) (by omega) (by omega) hl

theorem isScalar_extent {bs : Bytes} {x : Scalar Nat} (h : IsScalar bs x) (r : Bytes) : extent (bs ++ r) = some bs.length := by
  have one : ∀ c : UInt8, extent [c] = some 1 → extent ([c] ++ r) = some [c].length := fun c hc => extent_mono hc
  cases h with
  | null ty h hh =>
    refine one h ?_
    simp only [extent]
    have : typeCode ty ≤ 13 := by cases ty <;> simp [typeCode]
    rw [if_neg (by omega), if_pos (by omega)]
  | bool b => cases b <;> exact one _ (by decide)
  | int bs body neg hf _ => cases neg <;> exact framed_extent (by simp) (by simp) (by simp) (by simp) hf r
  | float0 => exact one _ (by decide)
  | float4 body hb => exact framed_extent (t := 4) (by simp) (by simp) (by simp) (by simp) (.short 0x44 body (by omega) (by simp [hb])) r
  | float8 body hb => exact framed_extent (t := 4) (by simp) (by simp) (by simp) (by simp) (.short 0x48 body (by omega) (by simp [hb])) r
  | decimal0 => exact one _ (by decide)
  | decimal bs body d hf _ _ => exact framed_extent (by simp) (by simp) (by simp) (by simp) hf r
  | timestamp bs body d hf _ => exact framed_extent (by simp) (by simp) (by simp) (by simp) hf r
  | symbol bs body hf => exact framed_extent (by simp) (by simp) (by simp) (by simp) hf r
  | string bs body t hf _ => exact framed_extent (by simp) (by simp) (by simp) (by simp) hf r
  | clob bs body hf => exact framed_extent (by simp) (by simp) (by simp) (by simp) hf r
  | blob bs body hf => exact framed_extent (by simp) (by simp) (by simp) (by simp) hf r

theorem container_extent {ty : CType} {o : Bool} {bs body : Bytes} {items : List (Node Nat)} (hi : IsItems (ty = .struct) body items)
    (h : FramedContainer ty o bs body) (r : Bytes) : extent (bs ++ r) = some bs.length := by
  cases h with
  | list _ _ _ hf => exact framed_extent (by simp) (by simp) (by simp) (by simp) hf r
  | sexp _ _ _ hf => exact framed_extent (by simp) (by simp) (by simp) (by simp) hf r
  | struct _ _ _ hf =>
    refine framed_extent (by simp) (by simp) (by simp) ?_ hf r
    intro _ hl
    have := items_struct_length (by simpa using hi) (by intro h0; rw [h0] at hl; simp at hl)
    omega
  | ordered len body hne hl => exact extent_long (by decide) (by decide) (by decide) hl

theorem wrapped_extent {ann : List Nat} {inner bs : Bytes} (h : Wrapped ann inner bs)
    (hi : ∀ r, extent (inner ++ r) = some inner.length) (r : Bytes) : extent (bs ++ r) = some bs.length := by
  cases h with
  | bare => exact hi r
  | wrapper _ len sids _ _ hne hs hl hf =>
    refine framed_extent (by simp) (by simp) (fun _ => ?_) (by simp) hf r
    intro h0
    have : len = [] := by simp at h0; exact h0.1
    have hd := hl.1
    rw [this] at hd
    cases hd

theorem value_extent {v : Bytes} {n : Node Nat} (h : IsValue v n) (r : Bytes) : extent (v ++ r) = some v.length := by
  cases h with
  | scalar inner v ann x hx hw => exact wrapped_extent hw (isScalar_extent hx) r
  | cont body inner v ann ty ch o hi _ hc hw => exact wrapped_extent hw (container_extent hi hc) r

/-- What may follow at the top level: values, then further segments. -/
def IsTail (x : Bytes) : Prop := ∃ body rest items segs, x = body ++ rest ∧ IsItems false body items ∧ IsStream rest segs

/-- The first unit of what may follow at the top level. -/
theorem tail_extent {x : Bytes} (h : IsTail x) (hne : x ≠ []) : ∃ k, extent x = some k ∧ 0 < k ∧ k ≤ x.length ∧ IsTail (x.drop k) := by
  obtain ⟨body, rest, items, segs, rfl, hi, hs⟩ := h
  have unit : ∀ (v b : Bytes) (its : List (Node Nat)), v ≠ [] → extent (v ++ (b ++ rest)) = some v.length → IsItems false b its →
      ∃ k, extent (v ++ b ++ rest) = some k ∧ 0 < k ∧ k ≤ (v ++ b ++ rest).length ∧ IsTail ((v ++ b ++ rest).drop k) := by
    intro v b its hv he hb
    refine ⟨v.length, by simpa using he, List.length_pos_iff.2 hv, by simp, b, rest, its, segs, by simp, hb, hs⟩
  cases hi with
  | nil =>
    cases hs with
    | nil => simp at hne
    | segment body rest items segs hi hs =>
      exact ⟨4, by simp [extent], by simp, by simp, body, rest, items, segs, by simp, hi, hs⟩
  | pad _ f p pb rst _ hf hp hr =>
    simp only [IsPadField, Bool.false_eq_true, if_false] at hf
    subst hf
    simp only [List.nil_append]
    exact unit p rst _ (framed_ne_nil hp) (framed_extent (by simp) (by simp) (by simp) (by simp) hp _) hr
  | scalar _ f inner v rst _ ann x its hf hx hw hr =>
    cases hf
    simp only [List.nil_append]
    exact unit v rst _ (wrapped_ne_nil hw (isScalar_ne_nil hx)) (wrapped_extent hw (isScalar_extent hx) _) hr
  | cont _ f cb inner v rst _ ann ty ch its o hf hch ho hc hw hr =>
    cases hf
    simp only [List.nil_append]
    exact unit v rst _ (wrapped_ne_nil hw (framedContainer_ne_nil hc)) (wrapped_extent hw (container_extent hch hc) _) hr

theorem IsStream.tail {x : Bytes} {segs : List (List (Node Nat))} (h : IsStream x segs) : IsTail x :=
  ⟨[], x, [], segs, rfl, .nil _, h⟩

/-- What follows a complete part is itself complete. -/
theorem tail_cancel : ∀ (n : Nat) (pre x : Bytes), pre.length ≤ n → IsTail pre → IsTail (pre ++ x) → IsTail x
  | n, pre, x, hn, hp, hx => by
    by_cases h0 : pre = []
    · subst h0; simpa using hx
    obtain ⟨k, hk, hpos, hle, hd⟩ := tail_extent hp h0
    obtain ⟨k', hk', -, -, hd'⟩ := tail_extent hx (by simp [h0])
    rw [extent_mono hk] at hk'
    obtain rfl := Option.some.inj hk'
    rw [List.drop_append_of_le_length hle] at hd'
    match n with
    | 0 => simp at hn; exact absurd hn h0
    | n + 1 => exact tail_cancel n (pre.drop k) x (by simp; omega) hd hd'

/-- A document that is cut strictly inside a top-level value is not a document. -/
theorem cut_not_stream {pre v1 v2 : Bytes} {n : Node Nat} {segs : List (List (Node Nat))} (hpre : IsStream pre segs)
    (hv : IsValue (v1 ++ v2) n) (h1 : v1 ≠ []) (h2 : v2 ≠ []) : ∀ segs', ¬ IsStream (pre ++ v1) segs' := by
  intro segs' hc
  have ht := tail_cancel pre.length pre v1 (Nat.le_refl _) hpre.tail hc.tail
  obtain ⟨k, hk, -, hle, -⟩ := tail_extent ht h1
  have := value_extent hv []
  rw [List.append_assoc, extent_mono hk] at this
  have := Option.some.inj this
  have := List.length_pos_iff.2 h2
  simp only [List.length_append] at *
  omega

end Ion.Spec
