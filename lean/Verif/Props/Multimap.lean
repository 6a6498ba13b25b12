import Verif.Multimap
/-!
# C34: a Multimap behaves like an ordered multi-dictionary

Specification: the flat list of all (key, value) pairs in insertion order.
-/
set_option linter.unusedSimpArgs false
namespace Ion.MM
open Ion
variable {κ ν : Type} [DecidableEq κ]

/-- Operations of the public interface. -/
inductive Op (κ ν : Type) where
  | set (k : κ) (v : ν)
  | add (k : κ) (v : ν)
  | del (k : κ)
  | get (k : κ)
  | getAll (k : κ)
  | len
  | keys
  | items

/-- Results of operations. -/
inductive Out (κ ν : Type) where
  | none
  | value (v : ν)
  | values (v : List ν)
  | num (n : Nat)
  | keys (k : List κ)
  | items (l : List (κ × ν))
  | err (e : PyErr)
  deriving DecidableEq

namespace Spec
/-- Values of key `k` in insertion order. -/
def vals (l : List (κ × ν)) (k : κ) : List ν := (l.filter (·.1 = k)).map (·.2)

/-- Distinct keys by first insertion. -/
def firstKeys : List (κ × ν) → List κ
  | [] => []
  | (k, _) :: l => k :: (firstKeys l).filter (· ≠ k)

/-- `l[k] = v`: all pairs of `k` are replaced by the single pair, at the place of the first. -/
def setPair (l : List (κ × ν)) (k : κ) (v : ν) : List (κ × ν) :=
  match l with
  | [] => [(k, v)]
  | (k', v') :: l => if k' = k then (k, v) :: l.filter (·.1 ≠ k) else (k', v') :: setPair l k v

/-- What each operation does to the list of pairs. -/
def step (l : List (κ × ν)) : Op κ ν → List (κ × ν) × Out κ ν
  | .set k v => (setPair l k v, .none)
  | .add k v => (l ++ [(k, v)], .none)
  | .del k => if vals l k = [] then (l, .err .keyError) else (l.filter (·.1 ≠ k), .none)
  | .get k => match (vals l k).getLast? with
    | none => (l, .err .keyError)
    | some v => (l, .value v)
  | .getAll k => if vals l k = [] then (l, .err .keyError) else (l, .values (vals l k))
  | .len => (l, .num l.length)
  | .keys => (l, .keys (firstKeys l))
  | .items => (l, .items ((firstKeys l).flatMap fun k => (vals l k).map fun v => (k, v)))

/-- Results of a history. -/
def run (l : List (κ × ν)) : List (Op κ ν) → List (Out κ ν)
  | [] => []
  | op :: ops => (step l op).2 :: run (step l op).1 ops
end Spec
open Spec

/-- The same operations on the model of the code. -/
def step (m : Multimap κ ν) : Op κ ν → Multimap κ ν × Out κ ν
  | .set k v => (m.setItem k v, .none)
  | .add k v => (m.addItem k v, .none)
  | .del k => match m.delItem k with
    | .ok m' => (m', .none)
    | .error e => (m, .err e)
  | .get k => match m.getItem k with
    | .ok v => (m, .value v)
    | .error e => (m, .err e)
  | .getAll k => match m.getAllValues k with
    | .ok v => (m, .values v)
    | .error e => (m, .err e)
  | .len => (m, .num m.len)
  | .keys => (m, .keys (PyDict.keys m))
  | .items => (m, .items m.items)

/-- Results of a history. -/
def run (m : Multimap κ ν) : List (Op κ ν) → List (Out κ ν)
  | [] => []
  | op :: ops => (step m op).2 :: run (step m op).1 ops

theorem vals_nil_iff (l : List (κ × ν)) (k : κ) : vals l k = [] ↔ k ∉ firstKeys l := by
  induction l with
  | nil => simp [vals, firstKeys]
  | cons p l ih =>
    obtain ⟨k', v⟩ := p
    by_cases h : k' = k
    · simp [vals, firstKeys, h]
    · simp only [vals, List.filter_cons, h, decide_false, Bool.false_eq_true, if_false] at ih ⊢
      rw [ih]
      simp [firstKeys, Ne.symm h]

theorem vals_append (l l' : List (κ × ν)) (k : κ) : vals (l ++ l') k = vals l k ++ vals l' k := by
  simp [vals]

theorem firstKeys_append (l : List (κ × ν)) (k : κ) (v : ν) :
    firstKeys (l ++ [(k, v)]) = if k ∈ firstKeys l then firstKeys l else firstKeys l ++ [k] := by
  induction l with
  | nil => simp [firstKeys]
  | cons p l ih =>
    obtain ⟨k', v'⟩ := p
    simp only [List.cons_append, firstKeys, ih]
    by_cases h : k = k'
    · subst h
      by_cases h2 : k ∈ firstKeys l
      · simp [h2]
      · simp [h2, List.filter_append]
    · by_cases h2 : k ∈ firstKeys l
      · simp [h2, h]
      · simp [h2, h, List.filter_append]

theorem firstKeys_nodup (l : List (κ × ν)) : (firstKeys l).Nodup := by
  induction l with
  | nil => simp [firstKeys]
  | cons p l ih =>
    simp only [firstKeys, List.nodup_cons]
    exact ⟨by simp, ih.filter _⟩

theorem firstKeys_filter (l : List (κ × ν)) (k : κ) :
    firstKeys (l.filter (·.1 ≠ k)) = (firstKeys l).filter (· ≠ k) := by
  induction l with
  | nil => simp [firstKeys]
  | cons p l ih =>
    obtain ⟨k', v'⟩ := p
    by_cases h : k' = k
    · subst h
      simp only [List.filter_cons, firstKeys, ne_eq, not_true_eq_false, decide_false, Bool.false_eq_true, if_false]
      simp only [ne_eq] at ih
      rw [ih]; simp
    · simp only [List.filter_cons, firstKeys, ne_eq, h, not_false_eq_true, decide_true, if_true]
      simp only [ne_eq] at ih
      rw [ih, List.filter_filter, List.filter_filter]
      simp [Bool.and_comm]

theorem vals_filter (l : List (κ × ν)) (k k2 : κ) : vals (l.filter (·.1 ≠ k)) k2 = if k2 = k then [] else vals l k2 := by
  split
  · subst_vars
    rw [vals_nil_iff, firstKeys_filter]; simp
  · rename_i h
    simp only [vals, List.filter_filter]
    congr 1
    apply List.filter_congr
    intro p _
    by_cases h1 : p.1 = k2
    · simp [h1, h]
    · simp [h1]

theorem firstKeys_setPair (l : List (κ × ν)) (k : κ) (v : ν) :
    firstKeys (setPair l k v) = if k ∈ firstKeys l then firstKeys l else firstKeys l ++ [k] := by
  induction l with
  | nil => simp [firstKeys, setPair]
  | cons p l ih =>
    obtain ⟨k', v'⟩ := p
    by_cases h : k' = k
    · subst h
      have := firstKeys_filter l k'
      simp only [setPair, if_true, firstKeys, List.mem_cons, true_or, this, List.filter_filter, Bool.and_self]
    · simp only [setPair, h, if_false, firstKeys, ih]
      by_cases h2 : k ∈ firstKeys l
      · simp [h2, Ne.symm h]
      · simp [h2, Ne.symm h, List.filter_append]

theorem vals_setPair (l : List (κ × ν)) (k k2 : κ) (v : ν) :
    vals (setPair l k v) k2 = if k2 = k then [v] else vals l k2 := by
  induction l with
  | nil =>
    by_cases h : k2 = k
    · simp [setPair, vals, h]
    · simp [setPair, vals, h, Ne.symm h]
  | cons p l ih =>
    obtain ⟨k', v'⟩ := p
    by_cases h : k' = k
    · subst h
      simp only [setPair, if_true]
      have := vals_filter l k' k2
      by_cases h2 : k2 = k'
      · subst h2
        simp only [if_true] at this ⊢
        simp only [vals, List.filter_cons, decide_true, if_true, List.map_cons] at this ⊢
        rw [this]
      · simp only [h2, if_false] at this ⊢
        simp only [vals, List.filter_cons, Ne.symm h2, decide_false, Bool.false_eq_true, if_false] at this ⊢
        rw [this]
    · simp only [setPair, h, if_false]
      by_cases h2 : k' = k2
      · have h3 : ¬ k2 = k := fun e => h (h2.trans e)
        simp only [h3, if_false] at ih ⊢
        simp only [vals, List.filter_cons, h2, decide_true, if_true, List.map_cons] at ih ⊢
        rw [ih]
      · simp only [vals, List.filter_cons, h2, decide_false, Bool.false_eq_true, if_false] at ih ⊢
        rw [ih]

/-- The store holds exactly the pairs of the flat list. -/
structure Rel (m : Multimap κ ν) (l : List (κ × ν)) : Prop where
  keys : PyDict.keys m = firstKeys l
  vals : ∀ k, k ∈ firstKeys l → PyDict.get m k = some (Spec.vals l k)

private theorem Rel.get {m : Multimap κ ν} {l : List (κ × ν)} (h : Rel m l) (k : κ) :
    PyDict.get m k = if Spec.vals l k = [] then none else some (Spec.vals l k) := by
  by_cases hk : Spec.vals l k = []
  · rw [if_pos hk]
    rw [vals_nil_iff, ← h.keys, PyDict.mem_keys_iff] at hk
    simpa using hk
  · rw [if_neg hk]
    rw [vals_nil_iff] at hk
    exact h.vals k (by simpa using hk)

private theorem keys_set {ν' : Type} (m : PyDict κ ν') (k : κ) (v : ν') :
    PyDict.keys (PyDict.set m k v) = if k ∈ PyDict.keys m then PyDict.keys m else PyDict.keys m ++ [k] := by
  induction m with
  | nil => simp [PyDict.keys, PyDict.set]
  | cons p m ih =>
    obtain ⟨k', v'⟩ := p
    by_cases h : k' = k
    · subst h; simp [PyDict.set, PyDict.keys]
    · simp only [PyDict.keys] at ih
      simp only [PyDict.set, h, if_false, PyDict.keys, List.map_cons, ih, List.mem_cons, Ne.symm h, false_or]
      split <;> rename_i hh <;> simp only [hh, if_true, if_false, List.cons_append]

private theorem del_some {ν' : Type} (m : PyDict κ ν') (k : κ) (hk : k ∈ PyDict.keys m) (hn : (PyDict.keys m).Nodup) :
    ∃ m', PyDict.del m k = some m' ∧ PyDict.keys m' = (PyDict.keys m).filter (· ≠ k)
      ∧ ∀ k2, k2 ≠ k → PyDict.get m' k2 = PyDict.get m k2 := by
  induction m with
  | nil => simp [PyDict.keys] at hk
  | cons p m ih =>
    obtain ⟨k', v'⟩ := p
    simp only [PyDict.keys, List.map_cons, List.nodup_cons] at hn
    by_cases h : k' = k
    · subst h
      refine ⟨m, by simp [PyDict.del], ?_, ?_⟩
      · simp only [PyDict.keys, List.map_cons, List.filter_cons, ne_eq, not_true_eq_false, decide_false,
          Bool.false_eq_true, if_false]
        rw [List.filter_eq_self.mpr]
        intro a ha
        simp only [decide_eq_true_eq]
        rintro rfl
        exact hn.1 ha
      · intro k2 h2
        simp [PyDict.get, Ne.symm h2]
    · have hk' : k ∈ PyDict.keys m := by
        simp only [PyDict.keys, List.map_cons, List.mem_cons] at hk
        rcases hk with hk | hk
        · exact absurd hk.symm h
        · exact hk
      obtain ⟨m', h1, h2, h3⟩ := ih hk' hn.2
      refine ⟨(k', v') :: m', by simp [PyDict.del, h, h1], ?_, ?_⟩
      · simp only [PyDict.keys] at h2
        simp [PyDict.keys, List.filter_cons, h, h2]
      · intro k2 hk2
        simp [PyDict.get, h3 k2 hk2]

private theorem del_none {ν' : Type} (m : PyDict κ ν') (k : κ) (hk : PyDict.get m k = none) : PyDict.del m k = none := by
  induction m with
  | nil => rfl
  | cons p m ih =>
    obtain ⟨k', v'⟩ := p
    by_cases h : k' = k
    · simp [PyDict.get, h] at hk
    · simp [PyDict.get, h] at hk
      simp [PyDict.del, h, ih hk]

private theorem store_eq {ν' : Type} (m : PyDict κ ν') (hn : (PyDict.keys m).Nodup) (g : κ → ν')
    (hg : ∀ k, k ∈ PyDict.keys m → PyDict.get m k = some (g k)) : m = (PyDict.keys m).map fun k => (k, g k) := by
  induction m with
  | nil => rfl
  | cons p m ih =>
    obtain ⟨k', v'⟩ := p
    simp only [PyDict.keys, List.map_cons, List.nodup_cons] at hn
    have h1 := hg k' (by simp [PyDict.keys])
    simp [PyDict.get] at h1
    have h2 := ih hn.2 (by
      intro k hk
      have := hg k (by simp only [PyDict.keys, List.map_cons, List.mem_cons]; exact Or.inr hk)
      have hne : k' ≠ k := by rintro rfl; exact hn.1 hk
      simpa [PyDict.get, hne] using this)
    simp only [PyDict.keys, List.map_cons] at h2 ⊢
    rw [← h2, h1]

private theorem Rel.store {m : Multimap κ ν} {l : List (κ × ν)} (h : Rel m l) :
    m = (firstKeys l).map fun k => (k, Spec.vals l k) := by
  have := store_eq m (by rw [h.keys]; exact firstKeys_nodup l) (Spec.vals l) (by rw [h.keys]; exact h.vals)
  rw [h.keys] at this
  exact this

private theorem sum_map_congr {α : Type} (f g : α → Nat) (l : List α) (h : ∀ a ∈ l, f a = g a) :
    (l.map f).sum = (l.map g).sum := by
  rw [List.map_congr_left h]

private theorem sum_filter_ne (f : κ → Nat) (k : κ) : ∀ (l : List κ), l.Nodup →
    (l.map f).sum = (if k ∈ l then f k else 0) + ((l.filter (· ≠ k)).map f).sum := by
  intro l
  induction l with
  | nil => simp
  | cons a l ih =>
    intro hn
    simp only [List.nodup_cons] at hn
    have := ih hn.2
    by_cases h : a = k
    · subst h
      simp only [ne_eq] at this
      simp [this, hn.1]
    · simp only [ne_eq] at this
      simp [List.filter_cons, h, this, Ne.symm h]
      omega

private theorem len_eq (l : List (κ × ν)) : ((firstKeys l).map fun k => (Spec.vals l k).length).sum = l.length := by
  induction l with
  | nil => rfl
  | cons p l ih =>
    obtain ⟨k, v⟩ := p
    have hs := sum_filter_ne (fun k => (Spec.vals l k).length) k (firstKeys l) (firstKeys_nodup l)
    rw [ih] at hs
    simp only [firstKeys, List.map_cons, List.sum_cons, List.length_cons]
    have h1 : (Spec.vals ((k, v) :: l) k).length = (Spec.vals l k).length + 1 := by simp [Spec.vals]
    have h2 : (((firstKeys l).filter (· ≠ k)).map fun k2 => (Spec.vals ((k, v) :: l) k2).length).sum
        = (((firstKeys l).filter (· ≠ k)).map fun k2 => (Spec.vals l k2).length).sum := by
      apply sum_map_congr
      intro a ha
      have : k ≠ a := by
        have := (List.mem_filter.mp ha).2
        simp at this
        exact fun e => this e.symm
      simp [Spec.vals, List.filter_cons, this]
    rw [h1, h2, hs]
    by_cases hk : k ∈ firstKeys l
    · simp [hk]; omega
    · have : Spec.vals l k = [] := (vals_nil_iff l k).mpr hk
      simp [hk, this]; omega

theorem rel_step {m : Multimap κ ν} {l : List (κ × ν)} (h : Rel m l) (op : Op κ ν) :
    (step m op).2 = (Spec.step l op).2 ∧ Rel (step m op).1 (Spec.step l op).1 := by
  cases op with
  | set k v =>
    refine ⟨rfl, ⟨?_, ?_⟩⟩
    · simp only [step, Spec.step, Multimap.setItem, keys_set, firstKeys_setPair, h.keys]
    · intro k2 hk2
      simp only [step, Spec.step, Multimap.setItem, PyDict.get_set, vals_setPair] at hk2 ⊢
      split
      · rfl
      · rename_i hne
        apply h.vals
        rw [firstKeys_setPair] at hk2
        split at hk2
        · exact hk2
        · simpa [hne] using hk2
  | add k v =>
    refine ⟨rfl, ?_⟩
    simp only [step, Spec.step, Multimap.addItem, h.get k]
    have hv : ∀ k2, Spec.vals (l ++ [(k, v)]) k2 = if k2 = k then Spec.vals l k ++ [v] else Spec.vals l k2 := by
      intro k2
      rw [vals_append]
      by_cases e : k2 = k
      · subst e; simp [Spec.vals]
      · simp [Spec.vals, e, Ne.symm e]
    by_cases hk : Spec.vals l k = []
    · rw [if_pos hk]
      refine ⟨?_, ?_⟩
      · simp only [Multimap.setItem, keys_set, firstKeys_append, h.keys]
      · intro k2 hk2
        simp only [Multimap.setItem, PyDict.get_set, hv]
        split
        · simp [hk]
        · rename_i hne
          apply h.vals
          rw [firstKeys_append] at hk2
          split at hk2
          · exact hk2
          · simpa [hne] using hk2
    · rw [if_neg hk]
      refine ⟨?_, ?_⟩
      · simp only [keys_set, firstKeys_append, h.keys]
      · intro k2 hk2
        simp only [PyDict.get_set, hv]
        split
        · rfl
        · rename_i hne
          apply h.vals
          rw [firstKeys_append] at hk2
          split at hk2
          · exact hk2
          · simpa [hne] using hk2
  | del k =>
    simp only [step, Spec.step, Multimap.delItem]
    by_cases hk : Spec.vals l k = []
    · have hg := h.get k
      rw [if_pos hk] at hg
      rw [if_pos hk, del_none m k hg]
      exact ⟨rfl, h⟩
    · rw [if_neg hk]
      have hmem : k ∈ PyDict.keys m := by
        rw [h.keys]
        rw [vals_nil_iff] at hk
        simpa using hk
      obtain ⟨m', h1, h2, h3⟩ := del_some m k hmem (by rw [h.keys]; exact firstKeys_nodup l)
      rw [h1]
      refine ⟨rfl, ⟨?_, ?_⟩⟩
      · simp only
        rw [h2, h.keys, firstKeys_filter]
      · intro k2 hk2
        rw [firstKeys_filter] at hk2
        have hm := List.mem_filter.mp hk2
        have hne : k2 ≠ k := by simpa using hm.2
        simp only
        rw [h3 k2 hne, vals_filter, if_neg hne]
        exact h.vals k2 hm.1
  | get k =>
    simp only [step, Spec.step, Multimap.getItem, h.get k]
    by_cases hk : Spec.vals l k = []
    · rw [if_pos hk, hk]
      exact ⟨rfl, h⟩
    · rw [if_neg hk]
      rw [List.getLast?_eq_getElem?]
      simp only
      have : (Spec.vals l k).length - 1 < (Spec.vals l k).length := by
        have := List.length_pos_iff.mpr hk
        omega
      rw [List.getElem?_eq_getElem this]
      exact ⟨rfl, h⟩
  | getAll k =>
    simp only [step, Spec.step, Multimap.getAllValues, h.get k]
    by_cases hk : Spec.vals l k = []
    · rw [if_pos hk, if_pos hk]; exact ⟨rfl, h⟩
    · rw [if_neg hk, if_neg hk]; exact ⟨rfl, h⟩
  | len =>
    refine ⟨?_, h⟩
    simp only [step, Spec.step, Multimap.len]
    rw [← len_eq l, h.store]
    simp [Function.comp_def]
  | keys => exact ⟨by simp only [step, Spec.step, h.keys], h⟩
  | items =>
    refine ⟨?_, h⟩
    simp only [step, Spec.step, Multimap.items]
    rw [h.store]
    simp [List.flatMap_map]

theorem rel_run (ops : List (Op κ ν)) : ∀ {m : Multimap κ ν} {l : List (κ × ν)}, Rel m l →
    run m ops = Spec.run l ops := by
  induction ops with
  | nil => intro m l _; rfl
  | cons op ops ih =>
    intro m l h
    obtain ⟨h1, h2⟩ := rel_step h op
    simp only [run, Spec.run, h1, ih h2]

theorem rel_empty : Rel ([] : Multimap κ ν) [] := ⟨rfl, by simp [firstKeys]⟩

/-- **C34.**  For every history of operations on an initially empty Multimap the results (values, key errors, length, keys,
items) are those of the flat list of pairs in insertion order. -/
theorem C34_multimap_history (ops : List (Op κ ν)) : run ([] : Multimap κ ν) ops = Spec.run [] ops := rel_run ops rel_empty

/-- **C34**, constructor: a Multimap built from a dictionary (distinct keys) lists that dictionary's items in order, and
every later history behaves like that flat list. -/
theorem C34_multimap_from_dict (d : List (κ × ν)) (hd : (d.map (·.1)).Nodup) (ops : List (Op κ ν)) :
    run (Multimap.new d) ops = Spec.run d ops := by
  apply rel_run
  have aux : ∀ (d l : List (κ × ν)) (m : Multimap κ ν), Rel m l → (d.map (·.1)).Nodup →
      (∀ p ∈ d, p.1 ∉ firstKeys l) → Rel (d.foldl (fun m p => Multimap.setItem m p.1 p.2) m) (l ++ d) := by
    intro d
    induction d with
    | nil => intro l m h _ _; simpa using h
    | cons p d ih =>
      intro l m h hn hk
      simp only [List.map_cons, List.nodup_cons] at hn
      have hset : (Spec.step l (Op.set p.1 p.2)).1 = l ++ [p] := by
        have : ∀ l : List (κ × ν), p.1 ∉ firstKeys l → setPair l p.1 p.2 = l ++ [p] := by
          intro l
          induction l with
          | nil => simp [setPair]
          | cons q l ih2 =>
            intro hq
            simp only [firstKeys, List.mem_cons, not_or] at hq
            have hne : q.1 ≠ p.1 := fun e => hq.1 e.symm
            have : p.1 ∉ firstKeys l := by
              intro hm
              exact hq.2 (by simp [List.mem_filter, hm, hq.1])
            simp [setPair, hne, ih2 this]
        exact this l (hk p (by simp))
      have h2 := (rel_step h (Op.set p.1 p.2)).2
      rw [hset] at h2
      have := ih (l ++ [p]) _ h2 hn.2 (by
        intro q hq
        rw [firstKeys_append]
        have hqp : q.1 ≠ p.1 := fun e => hn.1 (by rw [← e]; exact List.mem_map_of_mem hq)
        have := hk q (by simp [hq])
        split
        · exact this
        · simp [this, hqp])
      simpa [step] using this
  have := aux d [] [] rel_empty hd (by simp [firstKeys])
  simpa [Multimap.new] using this

/-- A concrete history with duplicates, replacement and deletion. -/
example : run ([] : Multimap Nat Nat)
    [.add 1 10, .add 2 20, .add 1 11, .get 1, .items, .len, .set 1 12, .items, .del 1, .keys, .get 1, .add 1 13, .items]
    = [.none, .none, .none, .value 11, .items [(1, 10), (1, 11), (2, 20)], .num 3, .none, .items [(1, 12), (2, 20)], .none,
      .keys [2], .err .keyError, .none, .items [(2, 20), (1, 13)]] := by decide
example : ([(1, 2), (3, 4)] : List (Nat × Nat)).map (·.1) |>.Nodup := by decide

end Ion.MM
