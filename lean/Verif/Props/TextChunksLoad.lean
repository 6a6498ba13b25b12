import Verif.TextPathsLoad
import Verif.Props.TextChunks
set_option linter.unusedSimpArgs false
/-!
# C53: how a text is divided does not matter to `load`

The outcome of `load`, `loads`: the values, the exception, or that it does not end.
-/
namespace Ion.Text
open Ion Ion.TextReader Ion.TextReader.Whole Ion.Simple

/-- Both divided texts are loaded by the text reader. -/
theorem load_twins {F : FloatText} {units units' : Bytes → List Nat} {f f' : List Nat → Bytes} {t : List Nat} {ps ps' : List (List Nat)} (hp : Pieces ps t) (hp' : Pieces ps' t)
    (hu : ∀ p ∈ ps, units (f p) = p) (hu' : ∀ p ∈ ps', units' (f' p) = p) (hc : ∀ c ∈ t, c ≤ 0x10FFFF) (hf : Fine t) (catalog : Catalog) (single : Bool) :
    loadText F units catalog single (ps.map f) = loadText F units' catalog single (ps'.map f') :=
  load_same (.active (twins hp hp' hu hu' hc hf))

theorem toBytes_flatten (ps : List (List Nat)) : (ps.map toBytes).flatten = toBytes ps.flatten := by
  induction ps with
  | nil => rfl
  | cons p ps ih => simp [ih, toBytes]

theorem load_bytes_text (F : FloatText) (catalog : Catalog) (single : Bool) {t : List Nat} (hb : t.take 4 ≠ [0xE0, 0x01, 0x00, 0xEA]) (hc : ∀ c ∈ t, c < 256) {ps : List (List Nat)} (hp : Pieces ps t) :
    load F catalog single (.bytes (ps.map toBytes)) = loadText F byteUnits catalog single (ps.map toBytes) := by
  have : formatOf false (ps.map toBytes).flatten = .text := by
    rw [toBytes_flatten, hp.1]
    simp only [formatOf, Bool.false_eq_true, if_false]
    rw [if_neg]
    intro h
    apply hb
    have h2 := congrArg byteUnits h
    have h3 : toBytes t = t.map UInt8.ofNat := rfl
    rw [h3, ← List.map_take] at h2
    rw [show List.map UInt8.ofNat (List.take 4 t) = toBytes (t.take 4) from rfl, units_bytes fun c h => hc c (List.mem_of_mem_take h)] at h2
    rw [h2]; rfl
  simp only [load, this]

/-- **C53**  (`load` of `str`)  Whatever the text is, in whatever pieces the file is read: the outcome of `load` is the same, be it values, an exception, or that it does not end. -/
theorem C53_load_str_partial (F : FloatText) (catalog : Catalog) (single : Bool) (t : List Nat) (hc : ∀ c ∈ t, c ≤ 0x10FFFF) (hf : Fine t) (ps ps' : List (List Nat)) (hp : Pieces ps t) (hp' : Pieces ps' t) :
    load F catalog single (.str ps) = load F catalog single (.str ps') := by
  refine load_twins hp hp' (fun p h => units_str fun c hc' => ?_) (fun p h => units_str fun c hc' => ?_) hc hf catalog single
  · have := piece_bound hp hc p h c hc'; omega
  · have := piece_bound hp' hc p h c hc'; omega

/-- **C53**  (`load` of `bytes`)  The same for `bytes` that do not begin with the binary version marker. -/
theorem C53_load_bytes_partial (F : FloatText) (catalog : Catalog) (single : Bool) (t : List Nat) (hb : t.take 4 ≠ [0xE0, 0x01, 0x00, 0xEA]) (hc : ∀ c ∈ t, c < 256) (hf : Fine t) (ps ps' : List (List Nat)) (hp : Pieces ps t) (hp' : Pieces ps' t) :
    load F catalog single (.bytes (ps.map toBytes)) = load F catalog single (.bytes (ps'.map toBytes)) := by
  rw [load_bytes_text F catalog single hb hc hp, load_bytes_text F catalog single hb hc hp']
  refine load_twins hp hp' (fun p h => units_bytes fun c hc' => ?_) (fun p h => units_bytes fun c hc' => ?_) (fun c h => by have := hc c h; omega) hf catalog single
  · exact piece_bound hp hc p h c hc'
  · exact piece_bound hp' hc p h c hc'

/-- **C53**  (`load` of `bytes` and of `str`)  And it does not matter whether the file gives the characters as `bytes` or as `str`. -/
theorem C53_load_bytes_or_str_partial (F : FloatText) (catalog : Catalog) (single : Bool) (t : List Nat) (hb : t.take 4 ≠ [0xE0, 0x01, 0x00, 0xEA]) (hc : ∀ c ∈ t, c < 256) (hf : Fine t) (ps ps' : List (List Nat))
    (hp : Pieces ps t) (hp' : Pieces ps' t) : load F catalog single (.bytes (ps.map toBytes)) = load F catalog single (.str ps') := by
  rw [load_bytes_text F catalog single hb hc hp]
  refine load_twins hp hp' (fun p h => units_bytes fun c hc' => ?_) (fun p h => units_str fun c hc' => ?_) (fun c h => by have := hc c h; omega) hf catalog single
  · exact piece_bound hp hc p h c hc'
  · have := piece_bound hp' hc p h c hc'; omega

theorem strPieces_pieces (size : Nat) (hs : 0 < size) : ∀ (n : Nat) (t : List Nat), t.length ≤ n → Pieces (strPieces size t) t := by
  intro n
  induction n with
  | zero =>
    intro t ht
    have : t = [] := List.eq_nil_of_length_eq_zero (by omega)
    subst this
    rw [strPieces]
    exact ⟨rfl, by simp⟩
  | succ n ih =>
    intro t ht
    rw [strPieces]
    by_cases h : t = [] ∨ size = 0
    · rw [dif_pos h]
      rcases h with rfl | h
      · exact ⟨rfl, by simp⟩
      · omega
    · rw [dif_neg h]
      have hne : t ≠ [] := fun hc => h (.inl hc)
      have hl : 0 < t.length := List.length_pos_iff.2 hne
      obtain ⟨h1, h2⟩ := ih (t.drop size) (by simp only [List.length_drop]; omega)
      refine ⟨by rw [List.flatten_cons, h1, List.take_append_drop], ?_⟩
      intro p hp
      rcases List.mem_cons.1 hp with rfl | hp
      · intro hc
        have := congrArg List.length hc
        simp only [List.length_take, List.length_nil] at this
        omega
      · exact h2 p hp

/-- **C53**  `loads` of a `str` is `load` of a file with this text, in whatever pieces it is read. -/
theorem C53_loads_str_partial (F : FloatText) (catalog : Catalog) (single : Bool) (t : List Nat) (hc : ∀ c ∈ t, c ≤ 0x10FFFF) (hf : Fine t) (ps : List (List Nat)) (hp : Pieces ps t) :
    loadsStr F catalog single t = load F catalog single (.str ps) :=
  C53_load_str_partial F catalog single t hc hf _ _ (strPieces_pieces _ (by decide) _ t (Nat.le_refl _)) hp

theorem pieces_bytes (size : Nat) : ∀ (n : Nat) (t : List Nat), t.length ≤ n → pieces size (toBytes t) = (strPieces size t).map toBytes := by
  intro n
  induction n with
  | zero =>
    intro t ht
    have : t = [] := List.eq_nil_of_length_eq_zero (by omega)
    subst this
    rw [strPieces, pieces]
    simp [toBytes]
  | succ n ih =>
    intro t ht
    rw [strPieces, pieces]
    have hn : toBytes t = [] ↔ t = [] := by simp [toBytes]
    by_cases h : t = [] ∨ size = 0
    · rw [dif_pos h, dif_pos (by rw [hn]; exact h)]; rfl
    · rw [dif_neg h, dif_neg (by rw [hn]; exact h)]
      have hne : t ≠ [] := fun hc => h (.inl hc)
      have hl : 0 < t.length := List.length_pos_iff.2 hne
      have hd : (toBytes t).drop size = toBytes (t.drop size) := by simp [toBytes]
      have ht : (toBytes t).take size = toBytes (t.take size) := by simp [toBytes]
      rw [hd, ht, ih (t.drop size) (by simp only [List.length_drop]; omega)]
      rfl

/-- **C53**  `loads` of `bytes` is `load` of a file with these bytes, in whatever pieces it is read. -/
theorem C53_loads_bytes_partial (F : FloatText) (catalog : Catalog) (single : Bool) (t : List Nat) (hb : t.take 4 ≠ [0xE0, 0x01, 0x00, 0xEA]) (hc : ∀ c ∈ t, c < 256) (hf : Fine t) (ps : List (List Nat))
    (hp : Pieces ps t) : loadsBytes F catalog single (toBytes t) = load F catalog single (.bytes (ps.map toBytes)) := by
  rw [loadsBytes, pieces_bytes _ _ t (Nat.le_refl _)]
  exact C53_load_bytes_partial F catalog single t hb hc hf _ _ (strPieces_pieces _ (by decide) _ t (Nat.le_refl _)) hp

/-- A text that is loaded with an exception, in any pieces. -/
example (F : FloatText) (ps : List (List Nat)) (hp : Pieces ps (chars ['"','\\','n','"','/','*','x','*','/','\r','\n','[','1',' ','}'])) :
    load F [] false (.str ps) = load F [] false (.str [chars ['"','\\','n','"','/','*','x','*','/','\r','\n','[','1',' ','}']]) :=
  C53_load_str_partial F [] false _ (by decide) (fine_of rfl) _ _ hp ⟨by simp, by simp [chars]⟩

end Ion.Text
