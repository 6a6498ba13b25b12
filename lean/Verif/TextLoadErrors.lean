import Verif.TextEventValues
import Verif.TextSafeRun
import Verif.TextLoadTotal
set_option linter.unusedSimpArgs false
/-!
# The exceptions of loading text

`Known` exceptions, `StopIteration` at the end of a text within a container, and nothing else, except for a reader that does not answer (`modelFuel`).
-/
namespace Ion.Errors.Text
open Ion Ion.Errors Ion.Errors.Managed Ion.Errors.Load Ion.Simple Ion.Simple.TextEnds
open Ion.TextReader (NoData EOF)
open Ion.TextReader.Calm (StatusSafe send_safe Raised)
open Ion.TextReader.Values (FloatsOnly StatusV send_values)
open Ion.ManagedReader (Event Context Handler react)
open Ion.RawReader (Cmd)

variable {F : FloatText} {units : Bytes → List Nat} {P : List Bytes → TextReader.Status → Prop} {X : Prop}

/-- The exceptions of `load`; `X` holds if the reader does not answer. -/
def Er (X : Prop) (err : PyErr) : Prop := Known err ∨ err = .stopIteration ∨ (err = .modelFuel ∧ X)

/-- `X` holds if a request is not answered. -/
def Hangs (F : FloatText) (units : Bytes → List Nat) (P : List Bytes → TextReader.Status → Prop) (X : Prop) : Prop :=
  ∀ {cs st cmd st'}, P cs st → (NoData cmd ∨ ∃ d ds, cs = d :: ds ∧ cmd = .data d) → TextReader.send F units st cmd = (.error .modelFuel, st') → X

/-- The state of the managed reader. -/
def MgOk (P : List Bytes → TextReader.Status → Prop) (cs : List Bytes) : ManagedReader.Status TextReader.Status → Prop
  | .live r ctx _ => StatusSafe r ∧ StatusV r ∧ r ≠ .dead ∧ CatOk ctx.catalog ∧ P cs r
  | .dead => False

def MgAnswer (P : List Bytes → TextReader.Status → Prop) (X : Prop) (cs : List Bytes) (r : Except PyErr Event × ManagedReader.Status TextReader.Status) : Prop :=
  match r.1 with
  | .error e => Er X e
  | .ok e => EventOk e ∧ MgOk P cs r.2

theorem raised_known {e : PyErr} (h : Raised e) : Known e := by
  rcases h with rfl | rfl | rfl | rfl | rfl <;> trivial

/-- One request: `cs` is what is left of the data before it. -/
theorem send_ok (hF : FloatsOnly F) (hP : Kept F units P) (hX : Hangs F units P X) {S : ManagedReader.Status TextReader.Status} {cmd : Cmd} {r : Except PyErr Event × ManagedReader.Status TextReader.Status}
    (h : tstep F units S cmd = some r) : ∀ {cs cs' : List Bytes}, MgOk P cs S → (NoData cmd ∧ cs' = cs ∨ ∃ d, EOF ∉ units d ∧ cs = d :: cs' ∧ cmd = .data d) → MgAnswer P X cs' r := by
  refine ManagedReader.send.partial_correctness (TextReader.send F units) (fun S cmd r => ∀ {cs cs' : List Bytes}, MgOk P cs S → (NoData cmd ∧ cs' = cs ∨ ∃ d, EOF ∉ units d ∧ cs = d :: cs' ∧ cmd = .data d) → MgAnswer P X cs' r) ?_ S cmd r h
  intro f ih S cmd r h cs cs' hS hk
  cases S with
  | dead => exact hS.elim
  | live st ctx hd =>
    obtain ⟨h1, h2, h3, h4, h5⟩ := hS
    have hs := send_safe (F := F) (units := units) (cmd := cmd) h1 (by
      rintro d rfl
      rcases hk with ⟨hk, -⟩ | ⟨d', hk, -, hc⟩
      · exact (hk d rfl).elim
      · cases hc; exact hk)
    have hv := send_values hF (units := units) (cmd := cmd) h2
    dsimp only at h
    cases hr : TextReader.send F units st cmd with
    | mk a st' =>
      rw [hr] at hs hv h
      obtain ⟨⟨s1, s2⟩, s3, -⟩ := hs
      cases a with
      | error err =>
        cases h
        rcases s3 err rfl with h6 | ⟨h6, h7⟩ | ⟨rfl, -⟩
        · exact .inl (raised_known h6)
        · exact (h3 h7).elim
        · refine .inr (.inr ⟨rfl, hX h5 ?_ hr⟩)
          rcases hk with ⟨hk, -⟩ | ⟨d, -, hk, hc⟩
          · exact .inl hk
          · exact .inr ⟨d, cs', hk, hc⟩
      | ok e =>
        have hp : P cs' st' := by
          rcases hk with ⟨hk, rfl⟩ | ⟨d, -, rfl, rfl⟩
          · exact hP.ask h5 hk hr
          · exact hP.data h5 hr
        obtain ⟨v1, v2⟩ := hv.2 e rfl
        have hx := react_ok h4 hd v1 v2
        dsimp only at h
        cases hact : react ctx hd e with
        | error err => rw [hact] at h hx; cases h; exact .inl hx
        | ok act =>
          rw [hact] at h hx
          cases act with
          | give ctx' h' =>
            cases h
            refine ⟨⟨Errors.Managed.value_only v1, field_only _ _, annotations_only _ _⟩, s1, hv.1, s2 e rfl, ?_, hp⟩
            rw [show ctx'.catalog = ctx.catalog from hx]; exact h4
          | ask c ctx' h' =>
            exact ih _ _ _ h ⟨s1, hv.1, s2 e rfl, by rw [hx.2]; exact h4, hp⟩ (.inl ⟨react_noData hact, rfl⟩)

/-! ## `load` -/

def LoadInv (units : Bytes → List Nat) (P : List Bytes → TextReader.Status → Prop) : Source (ManagedReader.Status TextReader.Status) → Prop
  | .active S cs => MgOk P cs S ∧ ∀ d ∈ cs, EOF ∉ units d
  | .ended => True
  | .dead => False

def NextOk (units : Bytes → List Nat) (P : List Bytes → TextReader.Status → Prop) (X : Prop) (o : Except PyErr Event × Source (ManagedReader.Status TextReader.Status)) : Prop :=
  match o.1 with
  | .error err => Er X err
  | .ok e => EventOk e ∧ LoadInv units P o.2

theorem await_ok (hF : FloatsOnly F) (hP : Kept F units P) (hX : Hangs F units P X) {r : Except PyErr Event} {S : ManagedReader.Status TextReader.Status} {cs : List Bytes}
    {o : Except PyErr Event × Source (ManagedReader.Status TextReader.Status)} (h : awaitEvent (tstep F units) r S cs = some o) : MgAnswer P X cs (r, S) → (∀ d ∈ cs, EOF ∉ units d) → NextOk units P X o := by
  refine awaitEvent.partial_correctness (tstep F units) (fun r S cs o => MgAnswer P X cs (r, S) → (∀ d ∈ cs, EOF ∉ units d) → NextOk units P X o) ?_ r S cs o h
  intro f ih r S cs o h ha hu
  cases r with
  | error err => cases h; exact ha
  | ok x =>
    dsimp only at h
    obtain ⟨a1, a2⟩ := ha
    by_cases hx : x.eventType.isStreamSignal = true
    · rw [if_pos hx] at h
      cases cs with
      | nil =>
        dsimp only at h
        split at h
        · simp only [bind, Option.bind_eq_some_iff] at h
          obtain ⟨⟨y, S1⟩, h1, h2⟩ := h
          exact ih _ _ _ _ h2 (send_ok hF hP hX h1 a2 (.inl ⟨noData_next, rfl⟩)) hu
        · cases h
          exact ⟨⟨only_ok, only_ok, only_ok⟩, trivial⟩
      | cons d ds =>
        simp only [bind, Option.bind_eq_some_iff] at h
        obtain ⟨⟨y, S1⟩, h1, h2⟩ := h
        exact ih _ _ _ _ h2 (send_ok hF hP hX h1 a2 (.inr ⟨d, hu d (by simp), rfl, rfl⟩)) fun d' hd => hu d' (by simp [hd])
    · rw [if_neg hx] at h
      cases h
      exact ⟨a1, a2, hu⟩

theorem next_ok (hF : FloatsOnly F) (hP : Kept F units P) (hX : Hangs F units P X) {src : Source (ManagedReader.Status TextReader.Status)} (hs : LoadInv units P src)
    {o : Except PyErr Event × Source (ManagedReader.Status TextReader.Status)} (h : nextEvent (tstep F units) src = some o) : NextOk units P X o := by
  cases src with
  | ended => cases h; exact .inr (.inl rfl)
  | dead => exact hs.elim
  | active S cs =>
    simp only [nextEvent, bind, Option.bind_eq_some_iff] at h
    obtain ⟨⟨y, S1⟩, h3, h4⟩ := h
    exact await_ok hF hP hX h4 (send_ok hF hP hX h3 hs.1 (.inl ⟨noData_next, rfl⟩)) hs.2

theorem loop_ok (hF : FloatsOnly F) (hP : Kept F units P) (hX : Hangs F units P X) {endType : IonEventType} {out : Out} {src : Source (ManagedReader.Status TextReader.Status)}
    {r : Except PyErr (Out × Source (ManagedReader.Status TextReader.Status))} (h : loadLoop (tstep F units) endType out src = some r) :
    LoadInv units P src → (∀ err, r = .error err → Er X err) ∧ ∀ p, r = .ok p → LoadInv units P p.2 := by
  refine loadLoop.partial_correctness (tstep F units) (fun endType out src r => LoadInv units P src → (∀ err, r = .error err → Er X err) ∧ ∀ p, r = .ok p → LoadInv units P p.2) ?_ endType out src r h
  intro f ih endType out src r h hs
  simp only [bind, Option.bind_eq_some_iff] at h
  obtain ⟨⟨a, src'⟩, h1, h⟩ := h
  have hn := next_ok hF hP hX hs h1
  have bad : ∀ {err : PyErr}, Er X err → (∀ err', (Except.error err : Except PyErr (Out × Source (ManagedReader.Status TextReader.Status))) = .error err' → Er X err') ∧
      ∀ p, (Except.error err : Except PyErr (Out × Source (ManagedReader.Status TextReader.Status))) = .ok p → LoadInv units P p.2 := fun he => ⟨(by rintro _ ⟨⟩; exact he), (by rintro _ ⟨⟩)⟩
  cases a with
  | error err => cases h; exact bad hn
  | ok e =>
    obtain ⟨he, hn⟩ := hn
    dsimp only at h hn
    split at h
    · cases h
      refine ⟨?_, ?_⟩
      · rintro _ ⟨⟩
      · rintro _ ⟨⟩; exact hn
    · split at h
      · cases hc : newContainer e with
        | error err => rw [hc] at h; cases h; exact bad (.inl (newContainer_only he _ hc))
        | ok c =>
          rw [hc] at h
          simp only [Option.bind_eq_some_iff] at h
          obtain ⟨q, h5, h⟩ := h
          obtain ⟨k1, k2⟩ := ih _ _ _ _ h5 hn
          cases q with
          | error err => cases h; exact bad (k1 _ rfl)
          | ok q =>
            dsimp only at h
            cases hadd : out.add e (q.1.obj c.2.1 c.2.2) with
            | error err => rw [hadd] at h; cases h; exact bad (.inl (add_only he _ hadd))
            | ok out' =>
              rw [hadd] at h
              exact ih _ _ _ _ h (k2 q rfl)
      · split at h
        · cases hc : scalarObj e with
          | error err => rw [hc] at h; cases h; exact bad (.inl (scalarObj_only he _ hc))
          | ok o =>
            rw [hc] at h
            dsimp only at h
            cases hadd : out.add e o with
            | error err => rw [hadd] at h; cases h; exact bad (.inl (add_only he _ hadd))
            | ok out' =>
              rw [hadd] at h
              exact ih _ _ _ _ h hn
        · exact ih _ _ _ _ h hn

/-- The exceptions of `load` of text. -/
theorem loadText_errors (hF : FloatsOnly F) (hP : Kept F units P) (hX : Hangs F units P X) {catalog : Catalog} (hc : CatOk catalog) {single : Bool} {cs : List Bytes} (hu : ∀ d ∈ cs, EOF ∉ units d) (h0 : P cs .fresh) {err : PyErr}
    (h : loadText F units catalog single cs = some (.error err)) : Er X err := by
  unfold loadText loadFrom at h
  simp only [bind, Option.bind_eq_some_iff] at h
  obtain ⟨r, h1, h2⟩ := h
  have := (loop_ok hF hP hX h1 ⟨⟨trivial, trivial, by simp, hc, h0⟩, hu⟩).1
  cases r with
  | error e => cases h2; exact this _ rfl
  | ok p =>
    dsimp only at h2
    split at h2 <;> cases h2
    exact .inl trivial

end Ion.Errors.Text
