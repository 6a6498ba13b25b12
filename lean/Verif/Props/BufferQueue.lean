import Verif.BufferQueue
/-!
# C30: the reader's buffer is a FIFO

The specification is a flat sequence split at a cursor.  The theorem says that every history of operations on the real
buffer gives exactly the results of the specification, whatever the segmentation.
-/
set_option linter.unusedSimpArgs false
namespace Ion.Queue
open Ion
variable {α : Type}

/-- Operations offered by the buffer to the readers. -/
inductive Op (α : Type) where
  | extend (data : List α)
  | read (n : Nat)
  | readByte
  | unread (c : α)
  | skip (n : Nat)
  | len

/-- Observable results. -/
inductive Out (α : Type) where
  | none
  | data (d : List α)
  | byte (b : α)
  | num (n : Int)
  | err (e : PyErr)
  deriving DecidableEq

namespace Spec
/-- A flat sequence: what has been consumed, and what is left. -/
structure Flat (α : Type) where
  consumed : List α := []
  rest : List α := []
  deriving DecidableEq

/-- The first `n` elements of the rest are consumed. -/
def Flat.advance (f : Flat α) (n : Nat) : Flat α := ⟨f.consumed ++ f.rest.take n, f.rest.drop n⟩

/-- What each operation does to the flat sequence. -/
def Flat.step (f : Flat α) : Op α → Flat α × Out α
  | .extend d => (⟨f.consumed, f.rest ++ d⟩, .none)
  | .read n => if n ≤ f.rest.length then (f.advance n, .data (f.rest.take n)) else (f, .err .indexError)
  | .readByte => match f.rest with
    | [] => (f, .err .indexError)
    | b :: _ => (f.advance 1, .byte b)
  | .unread c => if f.consumed = [] then (f, .err .indexError) else (⟨f.consumed.dropLast, c :: f.rest⟩, .none)
  | .skip n => (f.advance n, .num (n - f.rest.length : Nat))
  | .len => (f, .num f.rest.length)

/-- A history is legal when no empty data is added and only the element that was consumed last is given back (unread on a
buffer from which nothing was consumed is allowed: it is an error). -/
def Flat.Legal (f : Flat α) : List (Op α) → Prop
  | [] => True
  | op :: ops =>
    (match op with
      | .extend d => d ≠ []
      | .unread c => f.consumed = [] ∨ f.consumed.getLast? = some c
      | _ => True) ∧ Flat.Legal (f.step op).1 ops

/-- Results of a history, and the final sequence. -/
def Flat.run (f : Flat α) : List (Op α) → List (Out α) × Flat α
  | [] => ([], f)
  | op :: ops => let (f', o) := f.step op; let (os, f'') := f'.run ops; (o :: os, f'')
end Spec

/-- The same operations on the real buffer; an operation that raises leaves the object as the code leaves it. -/
def step [DecidableEq α] (q : BufferQueue α) : Op α → BufferQueue α × Out α
  | .extend d => (q.extend d, .none)
  | .read n => match q.read n with
    | .ok (d, q') => (q', .data d)
    | .error e => (q, .err e)
  | .readByte => match q.readByte with
    | .ok (b, q') => (q', .byte b)
    | .error e => (q, .err e)
  | .unread c => match q.unread c with
    | (.ok (), q') => (q', .none)
    | (.error e, q') => (q', .err e)
  | .skip n => match q.skip n with
    | .ok (r, q') => (q', .num r)
    | .error e => (q, .err e)
  | .len => (q, .num q.size)

def run [DecidableEq α] (q : BufferQueue α) : List (Op α) → List (Out α) × BufferQueue α
  | [] => ([], q)
  | op :: ops => let (q', o) := step q op; let (os, q'') := run q' ops; (o :: os, q'')

/-- Relation between the real buffer and the flat sequence. -/
structure Rel (q : BufferQueue α) (f : Spec.Flat α) : Prop where
  nonempty : ∀ s ∈ q.segments, s ≠ []
  flat : q.segments.flatten.drop q.offset = f.rest
  off : match q.segments with
    | [] => q.offset = 0
    | s :: _ => q.offset < s.length ∧ s.take q.offset <:+ f.consumed
  size : q.size = f.rest.length
  pos : q.position = f.consumed.length

theorem readLoop_spec (skip : Bool) : ∀ (segs : List (List α)) (off n : Nat) (data : List α) (cons : List α),
    (∀ s ∈ segs, s ≠ []) →
    (match segs with
      | [] => off = 0
      | s :: _ => off < s.length ∧ s.take off <:+ cons) →
    n ≤ (segs.flatten.drop off).length →
    ∃ segs' off', BufferQueue.readLoop segs off n skip data
        = .ok (data ++ (if skip then [] else (segs.flatten.drop off).take n), segs', off')
      ∧ (∀ s ∈ segs', s ≠ [])
      ∧ segs'.flatten.drop off' = (segs.flatten.drop off).drop n
      ∧ (match segs' with
        | [] => off' = 0
        | s :: _ => off' < s.length ∧ s.take off' <:+ cons ++ (segs.flatten.drop off).take n) := by
  intro segs
  induction segs with
  | nil =>
    intro off n data cons _ ho hn
    simp at ho hn
    subst ho hn
    exact ⟨[], 0, by simp [BufferQueue.readLoop]⟩
  | cons s segs ih =>
    intro off n data cons hne ho hn
    obtain ⟨ho, hsuf⟩ := ho
    have hne' : ∀ t ∈ segs, t ≠ [] := fun t ht => hne t (by simp [ht])
    unfold BufferQueue.readLoop
    by_cases hn0 : n = 0
    · subst hn0
      refine ⟨s :: segs, off, ?_, hne, ?_, ho, ?_⟩
      · simp
      · simp
      · simpa using hsuf
    · simp only [hn0, if_false]
      simp only [List.flatten_cons, List.drop_append, Nat.sub_eq_zero_of_le (Nat.le_of_lt ho), List.drop_zero,
        List.length_append, List.length_drop] at hn ⊢
      have e2 : ∀ k, k = s.length - off → min k n = n ∨ (min k n = k ∧ k < n) := by intro k _; omega
      by_cases hlt : n < s.length - off
      · -- partial consumption of the segment
        have hmin : min (s.length - off) n = n := by omega
        rw [if_neg (by omega)]
        refine ⟨s :: segs, off + n, ?_, hne, ?_, by omega, ?_⟩
        · simp only [hmin]
          rw [if_neg (by omega : ¬ (off = 0 ∧ n = s.length - off))]
          have hz : n - (s.length - off) = 0 := by omega
          simp [List.take_append, hz]
        · simp [List.flatten_cons, List.drop_append, show off + n - s.length = 0 by omega,
            show n - (s.length - off) = 0 by omega]
        · have hz : n - (s.length - off) = 0 := by omega
          rw [List.take_append, List.length_drop, hz, List.take_zero, List.append_nil, List.take_add]
          obtain ⟨t, ht⟩ := hsuf
          exact ⟨t, by rw [← ht]; simp⟩
      · have hmin : min (s.length - off) n = s.length - off := by omega
        rw [if_pos (by omega)]
        have hsl : (if skip = true then ([] : List α)
            else if off = 0 ∧ min (s.length - off) n = s.length - off then s
            else List.take (min (s.length - off) n) (List.drop off s))
            = if skip then [] else s.drop off := by
          by_cases hs : skip = true
          · simp [hs]
          · simp only [hs, if_false, hmin]
            by_cases h0 : off = 0
            · subst h0; simp
            · simp only [h0, false_and, if_false]
              rw [List.take_of_length_le (by simp)]
        rw [hsl, hmin]
        by_cases hlast : n ≤ s.length - off ∧ data.length = 0
        · rw [if_pos hlast]
          have hneq : n = s.length - off := by omega
          have hd : data = [] := by simpa using hlast.2
          refine ⟨segs, 0, ?_, hne', ?_, ?_⟩
          · subst hd
            cases skip <;> simp [List.take_append, hneq]
            
          · simp [hneq]; omega
          · cases segs with
            | nil => rfl
            | cons t ts =>
              refine ⟨by have := hne t (by simp); cases t <;> simp_all, by simp⟩
        · rw [if_neg hlast]
          obtain ⟨segs', off', h1, h2, h3, h4⟩ := ih 0 (n - (s.length - off)) (data ++ if skip then [] else s.drop off)
            (cons ++ s.drop off) hne' (by
              cases segs with
              | nil => rfl
              | cons t ts => exact ⟨by have := hne t (by simp); cases t <;> simp_all, by simp⟩) (by
                simp only [List.drop_zero]; omega)
          refine ⟨segs', off', ?_, h2, ?_, ?_⟩
          · rw [h1]
            have hle : s.length - off ≤ n := by omega
            cases skip <;> simp [List.take_append, List.take_of_length_le, hle]
          · rw [h3]
            have hle : s.length - off ≤ n := by omega
            have : List.drop n (List.drop off s) = [] := List.drop_eq_nil_of_le (by simp; omega)
            simp only [List.drop_zero, List.drop_append, List.length_drop, this, List.nil_append]
          · have hle : s.length - off ≤ n := by omega
            have e : List.take n (s.drop off ++ segs.flatten)
                = s.drop off ++ List.take (n - (s.length - off)) segs.flatten := by
              rw [List.take_append, List.length_drop, List.take_of_length_le (by simpa using hle)]
            rw [e, ← List.append_assoc]
            simpa using h4

theorem rel_read {q : BufferQueue α} {f : Spec.Flat α} (h : Rel q f) (n : Nat) (hn : n ≤ f.rest.length) (sk : Bool) :
    ∃ q', q.read n sk = .ok (if sk then [] else f.rest.take n, q') ∧ Rel q' (f.advance n) := by
  obtain ⟨segs', off', h1, h2, h3, h4⟩ := readLoop_spec sk q.segments q.offset n [] f.consumed h.nonempty h.off
    (by rw [h.flat]; exact hn)
  have hs := h.size
  have hp := h.pos
  refine ⟨{ segments := segs', offset := off', size := q.size - n, position := q.position + n }, ?_, ?_⟩
  · unfold BufferQueue.read
    rw [if_neg (by omega)]
    simp only [Int.toNat_natCast, h1]
    simp [h.flat, bind, Except.bind, pure, Except.pure]
  · rw [h.flat] at h3 h4
    refine ⟨h2, h3, h4, ?_, ?_⟩
    · simp [Spec.Flat.advance]; omega
    · simp [Spec.Flat.advance]; omega

theorem rel_empty : Rel (BufferQueue.empty : BufferQueue α) {} := by
  refine ⟨?_, ?_, ?_, ?_, ?_⟩ <;> simp [BufferQueue.empty]

private theorem rel_clear {q : BufferQueue α} {f : Spec.Flat α} (h : Rel q f) (n : Nat) (hn : f.rest.length ≤ n) :
    Rel { segments := [], offset := 0, size := 0, position := q.position + q.size } (f.advance n) := by
  refine ⟨by simp, ?_, by simp, ?_, ?_⟩
  · simp [Spec.Flat.advance, List.drop_eq_nil_of_le hn]
  · simp [Spec.Flat.advance, List.drop_eq_nil_of_le hn]
  · simp [Spec.Flat.advance, List.take_of_length_le hn, h.pos, h.size]

theorem rel_step [DecidableEq α] {q : BufferQueue α} {f : Spec.Flat α} (h : Rel q f) (op : Op α)
    (hl : match op with
      | .extend d => d ≠ []
      | .unread c => f.consumed = [] ∨ f.consumed.getLast? = some c
      | _ => True) :
    (step q op).2 = (f.step op).2 ∧ Rel (step q op).1 (f.step op).1 := by
  cases op with
  | extend d =>
    simp only at hl
    refine ⟨rfl, ?_⟩
    obtain ⟨hne, hf, ho, hs, hp⟩ := h
    refine ⟨?_, ?_, ?_, ?_, hp⟩
    · simp [step, BufferQueue.extend]
      intro s hs'
      rcases hs' with hs' | rfl
      · exact hne s hs'
      · exact hl
    · simp only [step, BufferQueue.extend, Spec.Flat.step, List.flatten_append, List.flatten_cons, List.flatten_nil,
        List.append_nil]
      rw [List.drop_append, hf]
      have : q.offset - q.segments.flatten.length = 0 := by
        cases hq : q.segments with
        | nil => rw [hq] at ho; simp [ho]
        | cons s l => rw [hq] at ho; simp at ho ⊢; omega
      rw [this, List.drop_zero]
    · simp only [step, BufferQueue.extend, Spec.Flat.step]
      cases hq : q.segments with
      | nil =>
        rw [hq] at ho; simp at ho ⊢
        rw [ho]
        exact ⟨by cases d <;> simp_all, by simp⟩
      | cons s l => rw [hq] at ho; simpa using ho
    · simp [step, BufferQueue.extend, Spec.Flat.step, hs]
  | read n =>
    simp only [step, Spec.Flat.step]
    by_cases hn : n ≤ f.rest.length
    · obtain ⟨q', h1, h2⟩ := rel_read h n hn false
      rw [h1, if_pos hn]
      exact ⟨by simp, h2⟩
    · rw [if_neg hn]
      have : q.read n = .error .indexError := by
        unfold BufferQueue.read
        rw [if_pos (by have := h.size; omega)]
      rw [this]
      exact ⟨rfl, h⟩
  | readByte =>
    simp only [step, Spec.Flat.step]
    obtain ⟨hne, hf, ho, hs, hp⟩ := h
    cases hr : f.rest with
    | nil =>
      have : q.readByte = .error .indexError := by
        unfold BufferQueue.readByte
        rw [if_pos (by rw [hs, hr]; simp)]
      rw [this]
      exact ⟨rfl, ⟨hne, hf, ho, hs, hp⟩⟩
    | cons b l =>
      unfold BufferQueue.readByte
      rw [if_neg (by rw [hs, hr]; simp; omega)]
      cases hq : q.segments with
      | nil => rw [hq, hr] at hf; simp at hf
      | cons s segs =>
        rw [hq] at ho hf hne
        obtain ⟨ho, hsuf⟩ := ho
        have hget : s[q.offset]? = some b := by
          have := congrArg (·[0]?) hf
          simp only [List.getElem?_drop, Nat.add_zero, List.flatten_cons, hr] at this
          rw [List.getElem?_append_left ho] at this
          simpa using this
        have hdrop : s.drop q.offset = b :: s.drop (q.offset + 1) := by
          rw [List.getElem?_eq_getElem ho] at hget
          rw [List.drop_eq_getElem_cons ho, Option.some.inj hget]
        have hz : q.offset - s.length = 0 := by omega
        have hl' : l = s.drop (q.offset + 1) ++ segs.flatten := by
          rw [List.flatten_cons, List.drop_append, hz, List.drop_zero, hdrop, hr] at hf
          simpa using hf.symm
        simp only [hget]
        by_cases he : q.offset + 1 = s.length
        · simp only [he, if_true]
          refine ⟨trivial, ⟨fun t ht => hne t (by simp [ht]), ?_, ?_, ?_, ?_⟩⟩
          · simp [Spec.Flat.advance, hr, hl', ← he]
          · cases segs with
            | nil => rfl
            | cons t ts => exact ⟨by have := hne t (by simp); cases t <;> simp_all, by simp⟩
          · simp [Spec.Flat.advance, hr, hs]
          · simp [Spec.Flat.advance, hr, hp]
        · simp only [he, if_false]
          refine ⟨trivial, ⟨by simpa using hne, ?_, ?_, ?_, ?_⟩⟩
          · have : q.offset + 1 - s.length = 0 := by omega
            simp [Spec.Flat.advance, hr, hl', hq, List.drop_append, this]
          · simp only [hq]
            refine ⟨by omega, ?_⟩
            rw [List.take_add_one, hget]
            obtain ⟨t, ht⟩ := hsuf
            exact ⟨t, by rw [← List.append_assoc, ht]; simp [Spec.Flat.advance, hr]⟩
          · simp [Spec.Flat.advance, hr, hs]
          · simp [Spec.Flat.advance, hr, hp]
  | unread c =>
    simp only at hl
    simp only [step, Spec.Flat.step]
    obtain ⟨hne, hf, ho, hs, hp⟩ := h
    unfold BufferQueue.unread
    by_cases hc : f.consumed = []
    · rw [if_pos (by rw [hp, hc]; simp), if_pos hc]
      exact ⟨rfl, ⟨hne, hf, ho, hs, hp⟩⟩
    · have hlast : f.consumed.getLast? = some c := by
        rcases hl with hl | hl
        · exact absurd hl hc
        · exact hl
      obtain ⟨pre, hpre⟩ : ∃ pre, f.consumed = pre ++ [c] := by
        refine ⟨f.consumed.dropLast, ?_⟩
        have := List.dropLast_concat_getLast hc
        rw [List.getLast?_eq_some_getLast hc] at hlast
        rw [← this]
        simp at hlast
        simp [hlast]
      have hlen : f.consumed.length = pre.length + 1 := by rw [hpre]; simp
      rw [if_neg (by omega), if_neg hc]
      by_cases h0 : q.offset = 0
      · rw [if_pos h0]
        rw [h0] at hf
        refine ⟨rfl, ⟨?_, ?_, ?_, ?_, ?_⟩⟩
        · simp only [List.mem_cons]
          rintro s (rfl | hs')
          · simp
          · exact hne s hs'
        · simpa [h0] using hf
        · simp [h0]
        · simp [hs]
        · simp [hpre, hp]
      · rw [if_neg h0]
        cases hq : q.segments with
        | nil => rw [hq] at ho; exact absurd ho h0
        | cons s segs =>
          rw [hq] at ho hf hne
          obtain ⟨ho, hsuf⟩ := ho
          have htake : s.take q.offset = s.take (q.offset - 1) ++ [s[q.offset - 1]] := by
            rw [List.take_append_getElem, show q.offset - 1 + 1 = q.offset by omega]
          have hcc : s[q.offset - 1] = c := by
            obtain ⟨t, ht⟩ := hsuf
            rw [htake, hpre, ← List.append_assoc] at ht
            have := List.append_inj_right' ht (by simp)
            simpa using this
          have hget : s[q.offset - 1]? = some c := by
            rw [List.getElem?_eq_getElem (by omega)]; simp [hcc]
          simp only [hget, ne_eq, not_true_eq_false, if_false]
          refine ⟨trivial, ⟨by simpa using hne, ?_, ?_, ?_, ?_⟩⟩
          · have hz : q.offset - s.length = 0 := by omega
            have hz' : q.offset - 1 - s.length = 0 := by omega
            rw [List.flatten_cons, List.drop_append, hz, List.drop_zero] at hf
            simp only [hq, List.flatten_cons, List.drop_append, hz', List.drop_zero]
            rw [← hf, ← List.getElem_cons_drop (as := s) (i := q.offset - 1) (by omega), hcc,
              show q.offset - 1 + 1 = q.offset by omega]
            rfl
          · simp only [hq]
            refine ⟨by omega, ?_⟩
            obtain ⟨t, ht⟩ := hsuf
            rw [htake, hpre, ← List.append_assoc] at ht
            refine ⟨t, ?_⟩
            have := List.append_inj_left' ht (by simp)
            simpa [hpre] using this
          · simp [hs]
          · simp [hp, hpre]
  | skip n =>
    simp only [step, Spec.Flat.step]
    unfold BufferQueue.skip
    have hs := h.size
    by_cases hn : (n : Int) ≥ q.size
    · rw [if_pos hn]
      refine ⟨?_, rel_clear h n (by omega)⟩
      simp; omega
    · rw [if_neg hn]
      obtain ⟨q', h1, h2⟩ := rel_read h n (by omega) true
      simp only [h1, bind, Except.bind, pure, Except.pure]
      refine ⟨?_, h2⟩
      simp; omega
  | len =>
    simp only [step, Spec.Flat.step]
    exact ⟨by rw [h.size], h⟩

theorem rel_run [DecidableEq α] (ops : List (Op α)) : ∀ {q : BufferQueue α} {f : Spec.Flat α}, Rel q f → f.Legal ops →
    (run q ops).1 = (f.run ops).1 ∧ Rel (run q ops).2 (f.run ops).2 := by
  induction ops with
  | nil => intro q f h _; exact ⟨rfl, h⟩
  | cons op ops ih =>
    intro q f h hl
    obtain ⟨hl1, hl2⟩ := hl
    obtain ⟨h1, h2⟩ := rel_step h op hl1
    obtain ⟨h3, h4⟩ := ih h2 hl2
    refine ⟨?_, h4⟩
    simp only [run, Spec.Flat.run, h1, h3]

/-- **C30.**  For every legal history of operations on a new buffer — whatever the sizes of the data segments — every
result (data, byte, count still to skip, length, error) is that of the flat sequence, and at the end the position counter
is the number of elements consumed. -/
theorem C30_queue_is_fifo [DecidableEq α] (ops : List (Op α)) (hl : Spec.Flat.Legal {} ops) :
    (run (BufferQueue.empty : BufferQueue α) ops).1 = (Spec.Flat.run {} ops).1
    ∧ (run (BufferQueue.empty : BufferQueue α) ops).2.position = (Spec.Flat.run {} ops).2.consumed.length
    ∧ (run (BufferQueue.empty : BufferQueue α) ops).2.size = (Spec.Flat.run {} ops).2.rest.length :=
  let h := rel_run ops rel_empty hl
  ⟨h.1, h.2.pos, h.2.size⟩

/-- The hypotheses are met by a history that crosses segment boundaries and unreads within and across them. -/
example :
    let ops : List (Op UInt8) := [.extend [1, 2, 3], .extend [4, 5], .read 2, .unread 2, .readByte, .readByte, .unread 3,
      .read 3, .len, .skip 7, .readByte, .unread 5, .readByte]
    Spec.Flat.Legal {} ops ∧ (run BufferQueue.empty ops).1 =
      [.none, .none, .data [1, 2], .none, .byte 2, .byte 3, .none, .data [3, 4, 5], .num 0, .num 7, .err .indexError,
        .none, .byte 5] := by
  refine ⟨?_, by decide⟩
  simp [Spec.Flat.Legal, Spec.Flat.step, Spec.Flat.advance]

/-- Outside the legal histories the code is not a FIFO: giving back a wrong element is accepted or rejected depending on
the segmentation, and a rejected one corrupts the buffer (the offset moves although the size does not): the byte that was
read is then read again. -/
theorem C30_wrong_unread_corrupts :
    (run (BufferQueue.empty : BufferQueue UInt8) [.extend [1, 2], .readByte, .unread 9, .len, .readByte]).1
      = [.none, .byte 1, .err .valueError, .num 1, .byte 1]
    ∧ (run (BufferQueue.empty : BufferQueue UInt8) [.extend [1], .extend [2], .readByte, .unread 9, .len, .readByte]).1
      = [.none, .none, .byte 1, .none, .num 2, .byte 9] := by
  constructor <;> decide

end Ion.Queue
