import Verif.Basic
/-!
# Python dictionaries

`dict` as an insertion-ordered association list with unique keys (Python ≥ 3.7).  This is part of the model of the
Python runtime, not of the repository.
-/
namespace Ion

/-- A Python `dict`. -/
abbrev PyDict (κ ν : Type) := List (κ × ν)

namespace PyDict
variable {κ ν : Type} [DecidableEq κ]

/-- `d.get(k)`. -/
def get (d : PyDict κ ν) (k : κ) : Option ν :=
  match d with
  | [] => none
  | (k', v) :: d => if k' = k then some v else get d k

/-- `d[k] = v`. -/
def set (d : PyDict κ ν) (k : κ) (v : ν) : PyDict κ ν :=
  match d with
  | [] => [(k, v)]
  | (k', v') :: d => if k' = k then (k, v) :: d else (k', v') :: set d k v

/-- `list(d)` -/
def keys (d : PyDict κ ν) : List κ := d.map (·.1)

@[simp] theorem get_nil (k : κ) : get ([] : PyDict κ ν) k = none := rfl

theorem get_set_self (d : PyDict κ ν) (k : κ) (v : ν) : get (set d k v) k = some v := by
  induction d with
  | nil => simp [set, get]
  | cons p d ih =>
    obtain ⟨k', v'⟩ := p
    by_cases h : k' = k
    · simp [set, get, h]
    · simp [set, get, h, ih]

theorem get_set_ne (d : PyDict κ ν) (k k2 : κ) (v : ν) (h : k2 ≠ k) : get (set d k v) k2 = get d k2 := by
  induction d with
  | nil => simp [set, get, Ne.symm h]
  | cons p d ih =>
    obtain ⟨k', v'⟩ := p
    by_cases h1 : k' = k
    · have : ¬ k = k2 := fun hh => h hh.symm
      simp [set, get, h1, this]
    · by_cases h2 : k' = k2
      · subst h2; simp [set, get, h1]
      · simp [set, get, h1, h2, ih]

theorem get_set (d : PyDict κ ν) (k k2 : κ) (v : ν) :
    get (set d k v) k2 = if k2 = k then some v else get d k2 := by
  split
  · subst_vars; exact get_set_self d _ v
  · exact get_set_ne d k k2 v ‹_›

theorem mem_keys_iff (d : PyDict κ ν) (k : κ) : k ∈ keys d ↔ (get d k).isSome := by
  induction d with
  | nil => simp [keys]
  | cons p d ih =>
    obtain ⟨k', v'⟩ := p
    by_cases h : k' = k
    · simp [keys, get, h]
    · have : k ∈ keys ((k', v') :: d) ↔ k ∈ keys d := by
        simp [keys, Ne.symm h]
      rw [this, ih]; simp [get, h]

end PyDict
end Ion
