import Verif.Props.TextReject
import Verif.Props.Malformed
import Verif.ManagedReader
set_option linter.unusedSimpArgs false
/-!
# C57: other versions of Ion are refused
-/
namespace Ion.Text
open Ion Ion.Spec Ion.TextSpec

/-- **C57** (text)  After any beginning of a text, at the top level, the marker `$ion_i_j` of another version than 1.0 raises `IonException`, after the events of what stands before. -/
theorem C57_text_version_refused (F : FloatText) (t : List Nat) (es : List IonEvent) (major minor g r : List Nat) (hi : major ≠ []) (hi' : Digits major) (hj : minor ≠ []) (hj' : Digits minor)
    (hne : (major, minor) ≠ ([49], [48])) (hg : IsGap g) (hg0 : g = [] → r = [] ∨ Opens r) (hr : IsToken r) (hc : NoNext (· = 58) r)
    (ht : IsOpen F none 0 t es (asc ['$','i','o','n','_'] ++ (major ++ 95 :: (minor ++ (g ++ r))))) :
    Rejects F (t ++ (asc ['$','i','o','n','_'] ++ (major ++ 95 :: (minor ++ (g ++ r))))) es :=
  C50_rejects_wrong_text_partial F .start none 0 t _ es (.start _ _ _ _ _ ht) (.version major minor g r hi hi' hj hj' hne hg hg0 hr hc)
    (by rintro c r' h; simp only [asc, List.map_cons, List.cons_append, List.cons.injEq] at h; rw [← h.1]; simp [IsTokenChar, IsSpace])

/-- `$ion_2_0 1`, from the beginning of a text -/
example (F : FloatText) : Rejects F (asc ['$','i','o','n','_','2','_','0',' ','1']) [] :=
  C57_text_version_refused F [] [] [50] [48] [32] [49] (by simp) (by simp [Digits, Digit]) (by simp) (by simp [Digits, Digit]) (by simp) ⟨.space _ _ (by simp [IsSpace]) .nil, by simp⟩ (by simp) (by rintro c r' h; cases h; simp [IsTokenChar, IsSpace]) (by rintro c r' ⟨⟩; decide)
    (.top [] [] _ [] .nil .nil)

end Ion.Text

namespace Ion.RawReader
open Ion Ion.Spec Ion.Fields.Spec

theorem defect_after {pre r : Bytes} {segs : List (List (Spec.Node Nat))} (h : IsStream pre segs) (hr : ∀ r', r ≠ [0x01, 0x00, 0xEA] ++ r') : Defect true false (pre ++ 0xE0 :: r) := by
  induction h with
  | nil => exact .badMarker r hr
  | segment body rest items segs hi _ ih =>
    rw [List.append_assoc, List.append_assoc]
    exact .afterMarker _ (.later true false body _ items hi ih)

/-- **C57** (binary)  After any correct stream, octets at the top level that start like a version marker but are not the marker of 1.0 are read as events and then an exception, whatever follows and
however the stream is cut into chunks. -/
theorem C57_binary_version_refused (pre r : Bytes) (segs : List (List (Spec.Node Nat))) (hs : IsStream pre segs) (hr : ∀ r', r ≠ [0x01, 0x00, 0xEA] ++ r') (cs : List Bytes)
    (hc : Chunks cs (pre ++ 0xE0 :: r)) (m : Nat) (hm : 2 * (pre ++ 0xE0 :: r).length + 1 < m) :
    ∃ (es : List IonEvent) (err : PyErr), Blocking.rawRun cs (List.replicate m .next) = es.map .ok ++ [.error err] ∧
      ∀ e ∈ es, e.eventType ≠ .streamEnd ∧ e.eventType ≠ .incomplete := by
  cases hs with
  | nil => exact C42_no_marker_raises _ (by simp) (fun rest h => hr rest (by simpa using h)) cs hc m hm
  | segment body rest items segs hi hs =>
    rw [List.append_assoc, List.append_assoc] at hc hm
    exact C42_defects_raise _ (.later true false body _ items hi (defect_after hs hr)) cs hc m hm

/-- Ion 1.0 with the value `true`, and then Ion 2.0. -/
example : ∃ (es : List IonEvent) (err : PyErr), Blocking.rawRun [[0xE0, 1, 0, 0xEA], [0x11, 0xE0, 2], [0, 0xEA]] (List.replicate 100 .next) = es.map .ok ++ [.error err] ∧
    ∀ e ∈ es, e.eventType ≠ .streamEnd ∧ e.eventType ≠ .incomplete :=
  C57_binary_version_refused [0xE0, 1, 0, 0xEA, 0x11] [2, 0, 0xEA] [[.scalar none [] (.bool true)]]
    (.segment [0x11] [] _ [] (.scalar false [] [0x11] [0x11] [] none [] (.bool true) [] .none (.bool true) (.bare _) (.nil _)) .nil) (by simp) _ ⟨rfl, by simp⟩ 100 (by simp)

end Ion.RawReader

namespace Ion.ManagedReader
open Ion
open Ion.RawReader (Cmd)

/-- **C57** (the managed reader, on any reader)  If the reader below delivers, at the top level and not within a symbol table, a version marker that is not that of 1.0, the managed reader raises
`IonException`, and is not usable any more. -/
theorem C57_managed_version_refused {R : Type} (raw : R → Cmd → Except PyErr IonEvent × R) (r r' : R) (ctx : Context) (cmd : Cmd) (e : IonEvent) (hr : raw r cmd = (.ok e, r'))
    (hv : e.eventType = .versionMarker) (hd : e.depth = some 0) (hne : e ≠ ION_VERSION_MARKER_EVENT) : send raw (.live r ctx none) cmd = some (.error .ionException, .dead) := by
  rw [send]
  simp [hr, react, onUser, hv, hd, hne]

/-- A reader that delivers nothing but such markers. -/
example : send (R := Unit) (fun r _ => (.ok { eventType := .versionMarker, depth := some 0, value := .ok (some (.int 2)) }, r)) (.live () { catalog := [] } none) .next = some (.error .ionException, .dead) :=
  C57_managed_version_refused _ () () { catalog := [] } .next _ rfl rfl rfl (by decide)

end Ion.ManagedReader
