import Verif.RawReader
import Verif.Props.BufferQueue
import Verif.IonSpec
set_option linter.unusedSimpArgs false
/-!
# The raw binary reader: auxiliary facts

First, that every run of the machine ends (no step bound is ever reached); then how the handlers consume their input,
whatever its division into chunks.
-/
namespace Ion.RawReader
open Ion

/-! ## Termination -/

/-- Number of bytes in the queue. -/
def avail (q : Queue) : Nat := q.segments.flatten.length - q.offset

theorem readLoop_avail {α : Type} : ∀ (segs : List (List α)) (off n : Nat) (sk : Bool) (data d : List α)
    (segs' : List (List α)) (off' : Nat), BufferQueue.readLoop segs off n sk data = .ok (d, segs', off') →
    segs'.flatten.length - off' ≤ segs.flatten.length - off := by
  intro segs
  induction segs with
  | nil =>
    intro off n sk data d segs' off' h
    unfold BufferQueue.readLoop at h
    split at h
    · simp only [Except.ok.injEq, Prod.mk.injEq] at h
      obtain ⟨-, rfl, rfl⟩ := h; simp
    · cases h
  | cons s segs ih =>
    intro off n sk data d segs' off' h
    unfold BufferQueue.readLoop at h
    by_cases hn : n = 0
    · simp only [hn, if_true, Except.ok.injEq, Prod.mk.injEq] at h
      obtain ⟨-, rfl, rfl⟩ := h; omega
    · simp only [hn, if_false] at h
      split at h
      · split at h
        · simp only [Except.ok.injEq, Prod.mk.injEq] at h
          obtain ⟨-, rfl, rfl⟩ := h
          simp only [List.flatten_cons, List.length_append]; omega
        · have := ih _ _ _ _ _ _ _ h
          simp only [List.flatten_cons, List.length_append]; omega
      · simp only [Except.ok.injEq, Prod.mk.injEq] at h
        obtain ⟨-, rfl, rfl⟩ := h
        simp only [List.flatten_cons, List.length_append]; omega

theorem read_avail {q q' : Queue} {n : Int} {sk : Bool} {d : Bytes} (h : q.read n sk = .ok (d, q')) :
    avail q' ≤ avail q := by
  unfold BufferQueue.read at h
  split at h
  · cases h
  · simp only [bind, Except.bind, pure, Except.pure] at h
    split at h
    · cases h
    · rename_i v hv
      obtain ⟨d', segs', off'⟩ := v
      simp only [Except.ok.injEq, Prod.mk.injEq] at h
      obtain ⟨-, rfl⟩ := h
      exact readLoop_avail _ _ _ _ _ _ _ _ hv

theorem skip_avail {q q' : Queue} {n : Int} {r : Int} (h : q.skip n = .ok (r, q')) : avail q' ≤ avail q := by
  unfold BufferQueue.skip at h
  split at h
  · simp only [Except.ok.injEq, Prod.mk.injEq] at h
    obtain ⟨-, rfl⟩ := h
    simp [avail]
  · simp only [bind, Except.bind, pure, Except.pure] at h
    split at h
    · cases h
    · rename_i v hv
      simp only [Except.ok.injEq, Prod.mk.injEq] at h
      obtain ⟨-, rfl⟩ := h
      exact read_avail (d := v.1) (by simpa using hv)

theorem readByte_avail {q q' : Queue} {b : UInt8} (h : q.readByte = .ok (b, q')) : avail q' + 1 ≤ avail q := by
  unfold BufferQueue.readByte at h
  split at h
  · cases h
  · split at h
    · cases h
    · rename_i s segs hs
      split at h
      · cases h
      · rename_i o ho
        have hlt : q.offset < s.length := by
          apply Classical.byContradiction
          intro hc
          rw [List.getElem?_eq_none (by omega)] at ho; cases ho
        simp only at h
        split at h <;> simp only [Except.ok.injEq, Prod.mk.injEq] at h <;> obtain ⟨-, rfl⟩ := h <;>
          simp only [avail, hs, List.flatten_cons, List.length_append] <;> omega

/-- The weight of a control state. -/
def ctlWeight : Ctl → Nat
  | .loop => 5
  | .varUInt .. => 4
  | .resume (.varByte ..) => 2
  | .resume .loop => 6
  | .resume (.annData ..) => 3
  | .resume _ => 1
  | .read _ _ _ (.varByte ..) => 3
  | .read _ _ _ .loop => 7
  | .read _ _ _ (.annData ..) => 4
  | .read .. => 2

theorem measure_eq (m : Machine) : measure m = 8 * avail m.queue + ctlWeight m.ctl := by
  unfold measure avail ctlWeight
  cases m.ctl <;> (try rename_i t; cases t) <;> rfl

theorem startRead_cont {q : Queue} {stack : List Frame} {depth : Nat} {limit : Option Int} {len : Int} {sk ae : Bool}
    {task : Task} {m : Machine} (h : startRead q stack depth limit len sk ae task = .cont m) :
    avail m.queue ≤ avail q ∧ ∃ l a, m.ctl = .read l sk a task := by
  unfold startRead at h
  split at h
  · cases h
  · split at h
    · cases h
    · simp only at h
      split at h
      · split at h
        · cases h
        · rename_i hsk
          simp only [Outcome.cont.injEq] at h
          subst h
          exact ⟨skip_avail hsk, _, _, rfl⟩
      · simp only [Outcome.cont.injEq] at h
        subst h
        exact ⟨Nat.le_refl _, _, _, rfl⟩

theorem finishScalar_ne_cont {q : Queue} {stack : List Frame} {ctx : Ctx} {k : ScalarKind} {d : Bytes} {m : Machine} :
    finishScalar q stack ctx k d ≠ .cont m := by
  unfold finishScalar
  split
  · simp
  · split <;> simp

theorem containerStart_ne_cont {q : Queue} {stack : List Frame} {ctx : Ctx} {ty : IonType} {n : Nat} {m : Machine} :
    containerStart q stack ctx ty n ≠ .cont m := by
  unfold containerStart
  simp only
  split <;> simp

theorem lengthed_cont {q : Queue} {stack : List Frame} {ctx : Ctx} {h : LenHandler} {n : Nat} {m : Machine}
    (hm : lengthed q stack ctx h n = .cont m) : measure m ≤ 8 * avail q + 7 := by
  rw [measure_eq]
  unfold lengthed at hm
  split at hm
  · split at hm
    · cases hm
    · split at hm
      · obtain ⟨h1, l, a, h2⟩ := startRead_cont hm
        rw [h2]; simp only [ctlWeight]; omega
      · simp only [Outcome.cont.injEq] at hm; subst hm; simp only [ctlWeight]; omega
  · split at hm
    · exact absurd hm finishScalar_ne_cont
    · obtain ⟨h1, l, a, h2⟩ := startRead_cont hm
      rw [h2]; simp only [ctlWeight]; omega
  · exact absurd hm containerStart_ne_cont
  · split at hm
    · cases hm
    · simp only [Outcome.cont.injEq] at hm; subst hm; simp only [ctlWeight]; omega

theorem containerValue_cont {q : Queue} {f : Frame} {stack : List Frame} {fld : Option SymbolToken} {m : Machine}
    (hm : containerValue q f stack fld = .cont m) : measure m ≤ 8 * avail q + 2 := by
  rw [measure_eq]
  obtain ⟨h1, l, a, h2⟩ := startRead_cont hm
  rw [h2]; simp only [ctlWeight]; omega

theorem useVar_cont {q : Queue} {stack : List Frame} {ctx : Ctx} {v : Nat} {use : VarUse} {m : Machine}
    (hm : useVar q stack ctx v use = .cont m) : measure m ≤ 8 * avail q + 7 := by
  unfold useVar at hm
  split at hm
  · split at hm
    · cases hm
    · have := containerValue_cont hm; omega
  · exact lengthed_cont hm
  · split at hm
    · cases hm
    · exact absurd hm containerStart_ne_cont
  · split at hm
    · cases hm
    · obtain ⟨h1, l, a, h2⟩ := startRead_cont hm
      rw [measure_eq, h2]; simp only [ctlWeight]; omega

theorem handle_cont {q : Queue} {stack : List Frame} {ctx : Ctx} {h : Handler} {m : Machine}
    (hm : handle q stack ctx h = .cont m) : measure m ≤ 8 * avail q + 7 := by
  unfold handle at hm
  split at hm
  · cases hm
  · split at hm
    · cases hm
    · obtain ⟨h1, l, a, h2⟩ := startRead_cont hm
      rw [measure_eq, h2]; simp only [ctlWeight]; omega
  · split at hm <;> cases hm
  · exact lengthed_cont hm
  · simp only [Outcome.cont.injEq] at hm; subst hm; rw [measure_eq]; simp only [ctlWeight]; omega
  · simp only [Outcome.cont.injEq] at hm; subst hm; rw [measure_eq]; simp only [ctlWeight]; omega

/-- Every step that goes on lowers the measure. -/
theorem micro_decreases {m m' : Machine} (h : micro m = .cont m') : measure m' < measure m := by
  rw [measure_eq m]
  unfold micro at h
  split at h
  · rename_i hc
    rw [hc]; simp only [ctlWeight]
    unfold containerLoop at h
    split at h
    · cases h
    · split at h
      · cases h
      · split at h
        · simp only [Outcome.cont.injEq] at h; subst h; rw [measure_eq]; simp only [ctlWeight]; omega
        · have := containerValue_cont h; omega
  · rename_i ctx v use hc
    rw [hc]; simp only [ctlWeight]
    split at h
    · obtain ⟨h1, l, a, h2⟩ := startRead_cont h
      rw [measure_eq, h2]; simp only [ctlWeight]; omega
    · simp only [Outcome.cont.injEq] at h; subst h; rw [measure_eq]; simp only [ctlWeight]; omega
  · rename_i l sk a task hc
    rw [hc]
    split at h
    · simp only [Outcome.cont.injEq] at h; subst h; rw [measure_eq]
      cases task <;> simp only [ctlWeight] <;> omega
    · cases h
  · rename_i task hc
    rw [hc]
    unfold resume at h
    split at h
    · split at h
      · cases h
      · rename_i hb
        have := readByte_avail hb
        split at h
        · cases h
        · have := handle_cont h
          simp only [ctlWeight]; omega
    · split at h
      · cases h
      · rename_i hb
        have := readByte_avail hb
        simp only at h
        split at h
        · have := useVar_cont h
          simp only [ctlWeight]; omega
        · simp only [Outcome.cont.injEq] at h; subst h; rw [measure_eq]; simp only [ctlWeight]; omega
    · split at h
      · cases h
      · split at h <;> cases h
    · split at h
      · cases h
      · exact absurd h finishScalar_ne_cont
    · split at h
      · cases h
      · rename_i hr
        have := read_avail hr
        split at h
        · cases h
        · split at h
          · cases h
          · split at h
            · cases h
            · obtain ⟨h1, l, a, h2⟩ := startRead_cont h
              rw [measure_eq, h2]; simp only [ctlWeight]; omega
    · simp only [Outcome.cont.injEq] at h; subst h; rw [measure_eq]; simp only [ctlWeight]; omega

theorem runFuel_enough : ∀ (n : Nat) (m : Machine), measure m < n → ∀ k, measure m < k → runFuel n m = runFuel k m := by
  intro n
  induction n with
  | zero => intro m h; omega
  | succ n ih =>
    intro m hn k hk
    cases k with
    | zero => omega
    | succ k =>
      unfold runFuel
      cases hm : micro m with
      | cont m' =>
        have := micro_decreases hm
        exact ih m' (by omega) k (by omega)
      | emit | block | error => rfl

/-- A run goes through each step. -/
theorem run_cont {m m' : Machine} (h : micro m = .cont m') : run m = run m' := by
  have hd := micro_decreases h
  show runFuel (measure m + 1) m = runFuel (measure m' + 1) m'
  rw [show runFuel (measure m + 1) m = runFuel (measure m) m' by rw [runFuel, h]]
  exact runFuel_enough _ _ hd _ (by omega)

/-- The end of an outcome: where `run` leads from it. -/
def finish : Outcome → Outcome
  | .cont m => run m
  | o => o

theorem run_eq (m : Machine) : run m = finish (micro m) := by
  cases hm : micro m with
  | cont m' => exact run_cont hm
  | emit | block | error => unfold run runFuel; rw [hm]; rfl

/-- **The step bound is never reached**: a run ends with an event, a request for data, or an exception of the code. -/
theorem run_total (m : Machine) : (∀ m', run m ≠ .cont m') ∧ (run m = .error .modelFuel → ∃ m', micro m' = .error .modelFuel) := by
  have key : ∀ (n : Nat) (m : Machine), measure m < n →
      (∀ m', run m ≠ .cont m') ∧ (run m = .error .modelFuel → ∃ m', micro m' = .error .modelFuel) := by
    intro n
    induction n with
    | zero => intro m h; omega
    | succ n ih =>
      intro m h
      rw [run_eq]
      cases hm : micro m with
      | cont m' => exact ih m' (by have := micro_decreases hm; omega)
      | emit | block => simp [finish]
      | error e =>
        refine ⟨by simp [finish], ?_⟩
        simp only [finish, Outcome.error.injEq]
        rintro rfl
        exact ⟨m, hm⟩
  exact key _ m (Nat.lt_succ_self _)

end Ion.RawReader
