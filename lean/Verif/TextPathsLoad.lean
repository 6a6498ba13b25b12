import Verif.TextPaths
import Verif.ManagedText
set_option linter.unusedSimpArgs false
/-!
# The text reader does not see how a text is divided: the managed reader and `load`

The managed reader below `blocking_reader`, and `_load` on top of it, for two texts in different pieces (`load_same`).
-/
namespace Ion.Simple
open Ion
open Ion.ManagedReader (Event Context Handler thunkEvent react)
open Ion.RawReader (Cmd)

section
variable {R : Type} (raw : R → Cmd → Except PyErr IonEvent × R)

/-- What the managed reader answers after a reply of the reader below it. -/
inductive Moves : Context → Option Handler → Except PyErr IonEvent × R → Except PyErr Event × ManagedReader.Status R → Prop
  | error {ctx : Context} {h : Option Handler} {err : PyErr} {st : R} : Moves ctx h (.error err, st) (.error err, .dead)
  | refuse {ctx : Context} {h : Option Handler} {e : IonEvent} {st : R} {err : PyErr} : react ctx h e = .error err → Moves ctx h (.ok e, st) (.error err, .dead)
  | give {ctx ctx' : Context} {h h' : Option Handler} {e : IonEvent} {st : R} : react ctx h e = .ok (.give ctx' h') → Moves ctx h (.ok e, st) (.ok (thunkEvent ctx' e), .live st ctx' h')
  | ask {ctx ctx' : Context} {h h' : Option Handler} {e : IonEvent} {st : R} {cmd : Cmd} {o : Except PyErr Event × ManagedReader.Status R} :
      react ctx h e = .ok (.ask cmd ctx' h') → Moves ctx' h' (raw st cmd) o → Moves ctx h (.ok e, st) o

/-- What the blocking caller of the managed reader gets after a reply of the reader at the bottom. -/
inductive Gets : Context → Option Handler → Except PyErr IonEvent × R → List Bytes → Except PyErr Event × Source (ManagedReader.Status R) → Prop
  | error {ctx : Context} {h : Option Handler} {err : PyErr} {st : R} {cs : List Bytes} : Gets ctx h (.error err, st) cs (.error err, .dead)
  | refuse {ctx : Context} {h : Option Handler} {e : IonEvent} {st : R} {err : PyErr} {cs : List Bytes} : react ctx h e = .error err → Gets ctx h (.ok e, st) cs (.error err, .dead)
  | give {ctx ctx' : Context} {h h' : Option Handler} {e : IonEvent} {st : R} {cs : List Bytes} : react ctx h e = .ok (.give ctx' h') → e.eventType.isStreamSignal = false →
      Gets ctx h (.ok e, st) cs (.ok (thunkEvent ctx' e), .active (.live st ctx' h') cs)
  | feed {ctx ctx' : Context} {h h' : Option Handler} {e : IonEvent} {st : R} {d : Bytes} {ds : List Bytes} {o : Except PyErr Event × Source (ManagedReader.Status R)} :
      react ctx h e = .ok (.give ctx' h') → e.eventType.isStreamSignal = true → Gets ctx' h' (raw st (.data d)) ds o → Gets ctx h (.ok e, st) (d :: ds) o
  | flush {ctx ctx' : Context} {h h' : Option Handler} {e : IonEvent} {st : R} {o : Except PyErr Event × Source (ManagedReader.Status R)} :
      react ctx h e = .ok (.give ctx' h') → e.eventType = .incomplete → Gets ctx' h' (raw st .next) [] o → Gets ctx h (.ok e, st) [] o
  | ended {ctx ctx' : Context} {h h' : Option Handler} {e : IonEvent} {st : R} :
      react ctx h e = .ok (.give ctx' h') → e.eventType = .streamEnd → Gets ctx h (.ok e, st) [] (.ok streamEnd, .ended)
  | ask {ctx ctx' : Context} {h h' : Option Handler} {e : IonEvent} {st : R} {cmd : Cmd} {cs : List Bytes} {o : Except PyErr Event × Source (ManagedReader.Status R)} :
      react ctx h e = .ok (.ask cmd ctx' h') → Gets ctx' h' (raw st cmd) cs o → Gets ctx h (.ok e, st) cs o

variable {raw}

theorem send_moves {st : ManagedReader.Status R} {cmd : Cmd} {o : Except PyErr Event × ManagedReader.Status R} (h : ManagedReader.send raw st cmd = some o) :
    ∀ r ctx hd, st = .live r ctx hd → Moves raw ctx hd (raw r cmd) o := by
  refine ManagedReader.send.partial_correctness raw (fun st cmd o => ∀ r ctx hd, st = .live r ctx hd → Moves raw ctx hd (raw r cmd) o) ?_ st cmd o h
  rintro f ih st cmd o h r ctx hd rfl
  dsimp only at h
  generalize raw r cmd = x at h
  obtain ⟨x, r'⟩ := x
  cases x with
  | error err => cases h; exact .error
  | ok e =>
    dsimp only at h
    generalize hr : react ctx hd e = y at h
    cases y with
    | error err => cases h; exact .refuse hr
    | ok act =>
      cases act with
      | give c1 h1 => cases h; exact .give hr
      | ask cmd' c1 h1 => exact .ask hr (ih _ _ _ h _ _ _ rfl)

theorem gets_of_moves {ctx : Context} {hd : Option Handler} {r : Except PyErr IonEvent × R} {o : Except PyErr Event × ManagedReader.Status R} (h : Moves raw ctx hd r o) {cs : List Bytes}
    {o' : Except PyErr Event × Source (ManagedReader.Status R)} :
    (∀ err, o.1 = .error err → o' = (.error err, .dead)) →
    (∀ ctx0 h0 ctx' h' e st, react ctx0 h0 e = .ok (.give ctx' h') → o = (.ok (thunkEvent ctx' e), .live st ctx' h') → Gets raw ctx0 h0 (.ok e, st) cs o') → Gets raw ctx hd r cs o' := by
  induction h with
  | error => intro h1 h2; rw [h1 _ rfl]; exact .error
  | refuse hr => intro h1 h2; rw [h1 _ rfl]; exact .refuse hr
  | give hr => intro h1 h2; exact h2 _ _ _ _ _ _ hr rfl
  | ask hr _ ih => intro h1 h2; exact .ask hr (ih h1 h2)

theorem gets_of_await {x : Except PyErr Event} {y : ManagedReader.Status R} {cs : List Bytes} {o : Except PyErr Event × Source (ManagedReader.Status R)}
    (h : awaitEvent (ManagedReader.send raw) x y cs = some o) : ∀ ctx hd r, Moves raw ctx hd r (x, y) → Gets raw ctx hd r cs o := by
  refine awaitEvent.partial_correctness (ManagedReader.send raw) (fun x y cs o => ∀ ctx hd r, Moves raw ctx hd r (x, y) → Gets raw ctx hd r cs o) ?_ x y cs o h
  intro f ih x y cs o h ctx hd r hm
  refine gets_of_moves hm ?_ ?_
  · rintro err rfl
    cases h; rfl
  · intro c0 h0 c1 h1 e st hr he
    cases he
    dsimp only at h
    have ht : (thunkEvent c1 e).eventType = e.eventType := rfl
    rw [ht] at h
    by_cases hs : e.eventType.isStreamSignal = true
    · rw [if_pos hs] at h
      cases cs with
      | nil =>
        dsimp only at h
        by_cases hi : e.eventType = .incomplete
        · rw [if_pos hi] at h
          simp only [bind, Option.bind_eq_some_iff] at h
          obtain ⟨p, h2, h3⟩ := h
          exact .flush hr hi (ih _ _ _ _ h3 _ _ _ (send_moves h2 _ _ _ rfl))
        · rw [if_neg hi] at h
          cases h
          refine .ended hr ?_
          revert hs hi
          cases e.eventType <;> simp [IonEventType.isStreamSignal]
      | cons d ds =>
        dsimp only at h
        simp only [bind, Option.bind_eq_some_iff] at h
        obtain ⟨p, h2, h3⟩ := h
        exact .feed hr hs (ih _ _ _ _ h3 _ _ _ (send_moves h2 _ _ _ rfl))
    · rw [if_neg hs] at h
      cases h
      exact .give hr (by simpa using hs)

/-- From a reply of the reader at the bottom to the event that the blocking caller gets. -/
theorem gets_of_request {st : R} {ctx : Context} {hd : Option Handler} {cmd : Cmd} {cs : List Bytes} {o : Except PyErr Event × Source (ManagedReader.Status R)}
    (h : request raw (.live st ctx hd) cmd cs = some o) : Gets raw ctx hd (raw st cmd) cs o := by
  simp only [request, bind, Option.bind_eq_some_iff] at h
  obtain ⟨p, h1, h2⟩ := h
  exact gets_of_await h2 _ _ _ (send_moves h1 _ _ _ rfl)

theorem request_of_gets {ctx : Context} {hd : Option Handler} {r : Except PyErr IonEvent × R} {cs : List Bytes} {o : Except PyErr Event × Source (ManagedReader.Status R)}
    (h : Gets raw ctx hd r cs o) : ∀ st cmd, raw st cmd = r → request raw (.live st ctx hd) cmd cs = some o := by
  induction h with
  | error =>
    intro st cmd hr
    simp only [request]; rw [ManagedReader.send.eq_def]; simp only [hr, bind, Option.bind_some]; rw [awaitEvent.eq_def]
  | refuse h1 =>
    intro st cmd hr
    simp only [request]; rw [ManagedReader.send.eq_def]; simp only [hr, h1, bind, Option.bind_some]; rw [awaitEvent.eq_def]
  | @give ctx ctx' h h' e _ _ h1 h2 =>
    intro st cmd hr
    simp only [request]; rw [ManagedReader.send.eq_def]; simp only [hr, h1, bind, Option.bind_some]; rw [awaitEvent.eq_def]
    have : (thunkEvent ctx' e).eventType.isStreamSignal = false := h2
    simp [this]
  | @feed ctx ctx' h h' e _ _ _ _ h1 h2 _ ih =>
    intro st cmd hr
    have := ih _ _ rfl
    simp only [request] at this ⊢; rw [ManagedReader.send.eq_def]; simp only [hr, h1, bind, Option.bind_some] at this ⊢; rw [awaitEvent.eq_def]
    have h3 : (thunkEvent ctx' e).eventType.isStreamSignal = true := h2
    simp only [h3, if_true]
    exact this
  | @flush ctx ctx' h h' e _ _ h1 h2 _ ih =>
    intro st cmd hr
    have := ih _ _ rfl
    simp only [request] at this ⊢; rw [ManagedReader.send.eq_def]; simp only [hr, h1, bind, Option.bind_some] at this ⊢; rw [awaitEvent.eq_def]
    have h3 : (thunkEvent ctx' e).eventType = .incomplete := h2
    simp only [h3, if_true, IonEventType.isStreamSignal]
    exact this
  | @ended ctx ctx' h h' e _ h1 h2 =>
    intro st cmd hr
    simp only [request]; rw [ManagedReader.send.eq_def]; simp only [hr, h1, bind, Option.bind_some]; rw [awaitEvent.eq_def]
    have h3 : (thunkEvent ctx' e).eventType = .streamEnd := h2
    simp [h3, IonEventType.isStreamSignal]
  | @ask ctx ctx' h h' e _ cmd' _ _ h1 _ ih =>
    intro st cmd hr
    have := ih _ _ rfl
    simp only [request] at this ⊢; rw [ManagedReader.send.eq_def]; simp only [hr, h1] at this ⊢; exact this

end

/-! ## Two readers -/
section
open Ion.TextReader Ion.TextReader.Whole Ion.TextReader.Calm

variable {F : FloatText} {units units' : Bytes → List Nat}

/-- Two replies that lead, after some chunks, to the same answer of two text readers with the same text in different pieces. -/
def LikeM (F : FloatText) (units units' : Bytes → List Nat) (r : Except PyErr IonEvent × TextReader.Status) (cs : List Bytes) (r' : Except PyErr IonEvent × TextReader.Status) (cs' : List Bytes) : Prop :=
  ∃ (depth : Int) (sk : Bool) (b : Act) (p l : List Nat) (opens : List IonType) (q q' : BufferQueue Nat) (cs1 cs1' : List Bytes), 0 ≤ depth ∧ Final depth sk b l ∧ Fit opens b p l ∧ (sk = true → opens ≠ []) ∧
    Held units q cs1 p l ∧ Held units' q' cs1' p l ∧ Reach F units r cs (rep F depth sk b q) cs1 ∧ Reach F units' r' cs' (rep F depth sk b q') cs1'

theorem LikeM.symm {r r' : Except PyErr IonEvent × TextReader.Status} {cs cs' : List Bytes} (h : LikeM F units units' r cs r' cs') : LikeM F units' units r' cs' r cs := by
  obtain ⟨depth, sk, a, p, l, opens, q, q', cs1, cs1', h1, h2, h3, h4, h5, h6, h7, h8⟩ := h
  exact ⟨depth, sk, a, p, l, opens, q', q, cs1', cs1, h1, h2, h3, h4, h6, h5, h8, h7⟩

theorem likeM_of {depth : Int} {sk : Bool} {a : Act} {p l : List Nat} {opens : List IonType} {q q' : BufferQueue Nat} {cs cs' : List Bytes} (hd : 0 ≤ depth) (hf : Fit opens a p l) (ho : sk = true → opens ≠ [])
    (hq : Held units q cs p l) (hq' : Held units' q' cs' p l) : LikeM F units units' (rep F depth sk a q) cs (rep F depth sk a q') cs' := by
  obtain ⟨b, p1, l1, o1, h1, h2, h3, h4⟩ := path' (F := F) hd hf ho
  obtain ⟨q1, cs1, h5, h6⟩ := h4 units q cs hq
  obtain ⟨q2, cs2, h7, h8⟩ := h4 units' q' cs' hq'
  exact ⟨depth, sk, b, p1, l1, o1, q1, q2, cs1, cs2, hd, h1, h2, h3, h5, h7, h6, h8⟩

/-- One request to two such readers: the same exception at once, or the same answer later. -/
theorem likeM_send {st st' : TextReader.Status} {cs cs' : List Bytes} (h : Twin F units units' (.active st cs) (.active st' cs')) (cmd : Cmd) :
    (∃ err, TextReader.send F units st cmd = (.error err, .dead) ∧ TextReader.send F units' st' cmd = (.error err, .dead)) ∨
    LikeM F units units' (TextReader.send F units st cmd) cs (TextReader.send F units' st' cmd) cs' := by
  cases h with
  | fresh h1 h2 h3 h4 =>
    cases cmd with
    | next => exact .inr (likeM_of (sk := false) (Int.le_refl 0) (fit_start h3 h4) (by rintro ⟨⟩) h1 h2)
    | data d => exact .inl ⟨_, rfl, rfl⟩
    | skip => exact .inl ⟨_, rfl, rfl⟩
  | @paused e s q q' depth cs cs' p l opens h1 h2 h3 h4 h5 =>
    cases cmd with
    | next => exact .inr (likeM_of (sk := false) h4 h3 (by rintro ⟨⟩) h1 h2)
    | data d => exact .inl ⟨_, rfl, rfl⟩
    | skip =>
      simp only [TextReader.send]
      split
      · exact .inl ⟨_, rfl, rfl⟩
      · rename_i hn
        exact .inr (likeM_of (sk := true) h4 h3 (fun _ ho => hn (h5 ho)) h1 h2)

/-- Two blocking callers of managed readers. -/
inductive MTwin (F : FloatText) (units units' : Bytes → List Nat) : Source (ManagedReader.Status TextReader.Status) → Source (ManagedReader.Status TextReader.Status) → Prop
  | active {st st' : TextReader.Status} {cs cs' : List Bytes} {ctx : Context} {h : Option Handler} : Twin F units units' (.active st cs) (.active st' cs') →
      MTwin F units units' (.active (.live st ctx h) cs) (.active (.live st' ctx h) cs')
  | ended : MTwin F units units' .ended .ended
  | dead : MTwin F units units' .dead .dead

theorem gets_reach {r r' : Except PyErr IonEvent × TextReader.Status} {cs cs' : List Bytes} {ctx : Context} {hd : Option Handler} {o : Except PyErr Event × Source (ManagedReader.Status TextReader.Status)}
    (h : Reach F units r cs r' cs') (hg : Gets (TextReader.send F units) ctx hd r' cs' o) : Gets (TextReader.send F units) ctx hd r cs o := by
  induction h with
  | refl => exact hg
  | feed h1 _ ih => exact .feed (react_signal h1) (by rcases h1 with rfl | rfl <;> rfl) (ih hg)

theorem final_not_signal {e : IonEvent} {depth : Int} {sk : Bool} {b : Act} {p l : List Nat} {opens : List IonType} {q : BufferQueue Nat} {cs : List Bytes} {st : TextReader.Status}
    (h1 : Final depth sk b l) (h2 : Fit opens b p l) (h3 : Held units q cs p l) (he : rep F depth sk b q = (.ok e, st)) (hs : e.eventType.isStreamSignal = false) :
    ∃ s, b = .emit e s ∧ st = .paused e s q (newDepth depth sk e) := by
  cases b with
  | err x => rw [rep_err] at he; cases he
  | emit x s => rw [rep_emit h1] at he; cases he; exact ⟨s, rfl, rfl⟩
  | read c f k =>
    have h1 : l = [] := h1
    subst h1
    rw [rep_block (held_done h3).2] at he
    split at he
    · cases he
    · cases he; cases c <;> cases hs
  | wait a =>
    have h1 : l = [] := h2.ok
    subst h1
    rw [rep_wait (held_done h3).2] at he
    split at he
    · cases he
    · cases he; cases hs
  | unread c a => exact h1.elim
  | go s => exact h1.elim

theorem final_signal {e : IonEvent} {depth : Int} {sk : Bool} {b : Act} {p l : List Nat} {opens : List IonType} {q : BufferQueue Nat} {cs : List Bytes} {st : TextReader.Status}
    (h1 : Final depth sk b l) (h2 : Fit opens b p l) (h3 : Held units q cs p l) (he : rep F depth sk b q = (.ok e, st)) (hs : e.eventType.isStreamSignal = true) :
    l = [] ∧ IsSignal e ∧ (e.eventType = .incomplete → ∃ f k, b = .read false f k ∧ st = .blocked false f k q depth sk) := by
  cases b with
  | err x => rw [rep_err] at he; cases he
  | emit x s =>
    rw [rep_emit h1] at he
    cases he
    have : e.eventType.isStreamSignal = false := h2.ok.1
    rw [hs] at this; cases this
  | read c f k =>
    have h1 : l = [] := h1
    subst h1
    rw [rep_block (held_done h3).2] at he
    split at he
    · cases he
    · cases he
      cases c with
      | true => exact ⟨rfl, .inl rfl, by rintro ⟨⟩⟩
      | false => exact ⟨rfl, .inr rfl, fun _ => ⟨f, k, rfl, rfl⟩⟩
  | wait a =>
    have h1 : l = [] := h2.ok
    subst h1
    rw [rep_wait (held_done h3).2] at he
    split at he
    · cases he
    · cases he; exact ⟨rfl, .inl rfl, by rintro ⟨⟩⟩
  | unread c a => exact h1.elim
  | go s => exact h1.elim

theorem rep_signal_twin {e : IonEvent} {depth : Int} {sk : Bool} {b : Act} {p : List Nat} {opens : List IonType} {q q' : BufferQueue Nat} {st : TextReader.Status}
    (h1 : Final depth sk b []) (h2 : Fit opens b p []) (h3 : Held units q [] p []) (h4 : Held units' q' [] p []) (he : rep F depth sk b q = (.ok e, st)) (hs : e.eventType.isStreamSignal = true) :
    ∃ st', rep F depth sk b q' = (.ok e, st') := by
  cases b with
  | err x => rw [rep_err] at he; cases he
  | emit x s =>
    rw [rep_emit h1] at he ⊢
    cases he
    exact ⟨_, rfl⟩
  | read c f k =>
    rw [rep_block (held_done h3).2] at he
    rw [rep_block (held_done h4).2]
    split at he
    · cases he
    · rename_i hk
      rw [if_neg hk]; cases he; exact ⟨_, rfl⟩
  | wait a =>
    rw [rep_wait (held_done h3).2] at he
    rw [rep_wait (held_done h4).2]
    split at he
    · cases he
    · rename_i hk
      rw [if_neg hk]; cases he; exact ⟨_, rfl⟩
  | unread c a => exact h1.elim
  | go s => exact h1.elim

theorem rep_error_twin {err : PyErr} {depth : Int} {sk : Bool} {b : Act} {p l : List Nat} {opens : List IonType} {q q' : BufferQueue Nat} {st : TextReader.Status} {cs cs' : List Bytes}
    (h1 : Final depth sk b l) (h2 : Fit opens b p l) (h3 : Held units q cs p l) (h4 : Held units' q' cs' p l) (he : rep F depth sk b q = (.error err, st)) :
    ∃ st', rep F depth sk b q' = (.error err, st') := by
  cases b with
  | err x => rw [rep_err] at he ⊢; cases he; exact ⟨_, rfl⟩
  | emit x s => rw [rep_emit h1] at he; cases he
  | read c f k =>
    have h1 : l = [] := h1
    subst h1
    rw [rep_block (held_done h3).2] at he
    rw [rep_block (held_done h4).2]
    split at he
    · rename_i hk
      rw [if_pos hk]; cases he; exact ⟨_, rfl⟩
    · cases he
  | wait a =>
    have h1 : l = [] := h2.ok
    subst h1
    rw [rep_wait (held_done h3).2] at he
    rw [rep_wait (held_done h4).2]
    split at he
    · rename_i hk
      rw [if_pos hk]; cases he; exact ⟨_, rfl⟩
    · cases he
  | unread c a => exact h1.elim
  | go s => exact h1.elim

/-- The two blocking callers get the same. -/
theorem gets_same {ctx : Context} {hd : Option Handler} {r : Except PyErr IonEvent × TextReader.Status} {cs : List Bytes} {o : Except PyErr Event × Source (ManagedReader.Status TextReader.Status)}
    (h : Gets (TextReader.send F units) ctx hd r cs o) : ∀ r' cs', LikeM F units units' r cs r' cs' → ∃ o', Gets (TextReader.send F units') ctx hd r' cs' o' ∧ o.1 = o'.1 ∧ MTwin F units units' o.2 o'.2 := by
  induction h with
  | @error ctx hd err st cs =>
    rintro r' cs' ⟨depth, sk, b, p, l, opens, q, q', cs1, cs1', h1, h2, h3, h4, h5, h6, h7, h8⟩
    generalize hx : rep F depth sk b q = x at h7
    cases h7
    obtain ⟨st', h9⟩ := rep_error_twin h2 h3 h5 h6 hx
    rw [h9] at h8
    exact ⟨_, gets_reach h8 .error, rfl, .dead⟩
  | @refuse ctx hd e st err cs hr =>
    rintro r' cs' ⟨depth, sk, b, p, l, opens, q, q', cs1, cs1', h1, h2, h3, h4, h5, h6, h7, h8⟩
    generalize hx : rep F depth sk b q = x at h7
    cases h7 with
    | feed hs _ => rw [react_signal hs] at hr; cases hr
    | refl =>
      by_cases hs : e.eventType.isStreamSignal = true
      · rw [react_signal (final_signal h2 h3 h5 hx hs).2.1] at hr; cases hr
      · obtain ⟨s, rfl, rfl⟩ := final_not_signal h2 h3 h5 hx (by simpa using hs)
        rw [rep_emit h2] at h8
        exact ⟨_, gets_reach h8 (.refuse hr), rfl, .dead⟩
  | @give ctx ctx' hd hd' e st cs hr hs =>
    rintro r' cs' ⟨depth, sk, b, p, l, opens, q, q', cs1, cs1', h1, h2, h3, h4, h5, h6, h7, h8⟩
    generalize hx : rep F depth sk b q = x at h7
    cases h7 with
    | feed hs' _ => rcases hs' with rfl | rfl <;> cases hs
    | refl =>
      obtain ⟨s, rfl, rfl⟩ := final_not_signal h2 h3 h5 hx hs
      rw [rep_emit h2] at h8
      exact ⟨_, gets_reach h8 (.give hr hs), rfl, .active (twin_event h3 h1 h5 h6)⟩
  | @feed ctx ctx' hd hd' e st d ds o hr hs _ ih =>
    rintro r' cs' ⟨depth, sk, b, p, l, opens, q, q', cs1, cs1', h1, h2, h3, h4, h5, h6, h7, h8⟩
    generalize hx : rep F depth sk b q = x at h7
    cases h7 with
    | refl =>
      obtain ⟨rfl, _⟩ := final_signal h2 h3 h5 hx hs
      obtain ⟨h9, _⟩ := held_done h5
      cases h9
    | feed hs' h9 =>
      rw [react_signal hs'] at hr
      cases hr
      subst hx
      exact ih _ _ ⟨depth, sk, b, p, l, opens, q, q', cs1, cs1', h1, h2, h3, h4, h5, h6, h9, h8⟩
  | @flush ctx ctx' hd hd' e st o hr hi _ ih =>
    rintro r' cs' ⟨depth, sk, b, p, l, opens, q, q', cs1, cs1', h1, h2, h3, h4, h5, h6, h7, h8⟩
    obtain ⟨h9, rfl⟩ := h7.done
    obtain ⟨rfl, hsig, h10⟩ := final_signal h2 h3 h5 h9.symm (by rw [hi]; rfl)
    obtain ⟨f, k, rfl, rfl⟩ := h10 hi
    obtain ⟨rfl, _⟩ := held_done h6
    rw [react_signal hsig] at hr
    cases hr
    have h11 := h9.symm
    rw [rep_block (held_done h5).2] at h11
    rw [rep_block (held_done h6).2] at h8
    simp only [Bool.and_false, Bool.false_eq_true, if_false] at h8 h11
    have hl : LikeM F units units' (TextReader.send F units (.blocked false f k q depth sk) .next) [] (TextReader.send F units' (.blocked false f k q' depth sk) .next) [] := by
      cases f with
      | false => exact ⟨depth, sk, .err .ionException, p, [], opens, q, q', [], [], h1, trivial, ⟨trivial, raised_ion, trivial, h3.fine, trivial, trivial⟩, h4, h5, h6, .eq (by rw [rep_err]; rfl), .eq (by rw [rep_err]; rfl)⟩
      | true =>
        obtain ⟨q3, h12, h13, h14⟩ := held_eof h5
        obtain ⟨q4, h15, h16, h17⟩ := held_eof h6
        have := likeM_of (F := F) (sk := sk) (opens := opens) (a := k EOF) h1 ⟨h3.ok.2 rfl rfl, h3.safe EOF [] ⟨fun _ => rfl, trivial⟩ (.inl rfl), trivial, fine_eof h3.fine, h3.nest _, h3.level.2 _⟩ h4 h14 h17
        have e1 : TextReader.send F units (.blocked false true k q depth sk) .next = rep F depth sk (k EOF) q3 := rep_congr (by rw [advance.eq_def]; simp [h12, h13])
        have e2 : TextReader.send F units' (.blocked false true k q' depth sk) .next = rep F depth sk (k EOF) q4 := rep_congr (by rw [advance.eq_def]; simp [h15, h16])
        rw [e1, e2]
        exact this
    obtain ⟨o', h12, h13, h14⟩ := ih _ _ hl
    exact ⟨o', gets_reach h8 (.flush (react_signal (.inr rfl)) rfl h12), h13, h14⟩
  | @ended ctx ctx' hd hd' e st hr hi =>
    rintro r' cs' ⟨depth, sk, b, p, l, opens, q, q', cs1, cs1', h1, h2, h3, h4, h5, h6, h7, h8⟩
    obtain ⟨h9, rfl⟩ := h7.done
    have hs : e.eventType.isStreamSignal = true := by rw [hi]; rfl
    obtain ⟨rfl, hsig, h10⟩ := final_signal h2 h3 h5 h9.symm hs
    obtain ⟨rfl, _⟩ := held_done h6
    obtain ⟨st', h11⟩ := rep_signal_twin h2 h3 h5 h6 h9.symm hs
    rw [h11] at h8
    exact ⟨_, gets_reach h8 (.ended (react_signal hsig) hi), rfl, .ended⟩
  | @ask ctx ctx' hd hd' e st cmd cs o hr hg ih =>
    rintro r' cs' ⟨depth, sk, b, p, l, opens, q, q', cs1, cs1', h1, h2, h3, h4, h5, h6, h7, h8⟩
    generalize hx : rep F depth sk b q = x at h7
    cases h7 with
    | feed hs _ => rw [react_signal hs] at hr; cases hr
    | refl =>
      by_cases hs : e.eventType.isStreamSignal = true
      · rw [react_signal (final_signal h2 h3 h5 hx hs).2.1] at hr; cases hr
      · obtain ⟨s, rfl, rfl⟩ := final_not_signal h2 h3 h5 hx (by simpa using hs)
        rw [rep_emit h2] at h8
        rcases likeM_send (twin_event (F := F) (sk := sk) h3 h1 h5 h6) cmd with ⟨err, h9, h10⟩ | hl
        · rw [h9] at hg
          cases hg
          exact ⟨_, gets_reach h8 (.ask hr (by rw [h10]; exact .error)), rfl, .dead⟩
        · obtain ⟨o', h12, h13, h14⟩ := ih _ _ hl
          exact ⟨o', gets_reach h8 (.ask hr h12), h13, h14⟩

theorem MTwin.symm {s s' : Source (ManagedReader.Status TextReader.Status)} (h : MTwin F units units' s s') : MTwin F units' units s' s := by
  cases h with
  | active h =>
    refine .active ?_
    cases h with
    | fresh h1 h2 h3 h4 => exact .fresh h2 h1 h3 h4
    | paused h1 h2 h3 h4 h5 => exact .paused h2 h1 h3 h4 h5
  | ended => exact .ended
  | dead => exact .dead

/-- One request for an event. -/
theorem next_same {s s' : Source (ManagedReader.Status TextReader.Status)} (h : MTwin F units units' s s') {o : Except PyErr Event × Source (ManagedReader.Status TextReader.Status)}
    (hn : nextEvent (ManagedReader.send (TextReader.send F units)) s = some o) :
    ∃ o', nextEvent (ManagedReader.send (TextReader.send F units')) s' = some o' ∧ o.1 = o'.1 ∧ MTwin F units units' o.2 o'.2 := by
  cases h with
  | ended => cases hn; exact ⟨_, rfl, rfl, .dead⟩
  | dead => cases hn; exact ⟨_, rfl, rfl, .dead⟩
  | @active st st' cs cs' ctx hd h =>
    have hg := gets_of_request hn
    rcases likeM_send h .next with ⟨err, h1, h2⟩ | hl
    · rw [h1] at hg
      cases hg
      exact ⟨_, request_of_gets .error _ _ h2, rfl, .dead⟩
    · obtain ⟨o', h1, h2, h3⟩ := gets_same hg _ _ hl
      exact ⟨o', request_of_gets h1 _ _ rfl, h2, h3⟩

/-- The same outcome of `_load`. -/
def SameLoad (F : FloatText) (units units' : Bytes → List Nat) : Except PyErr (Out × Source (ManagedReader.Status TextReader.Status)) → Except PyErr (Out × Source (ManagedReader.Status TextReader.Status)) → Prop
  | .error err, .error err' => err = err'
  | .ok p, .ok p' => p.1 = p'.1 ∧ MTwin F units units' p.2 p'.2
  | _, _ => False

theorem loop_sim {ty : IonEventType} {out : Out} {s : Source (ManagedReader.Status TextReader.Status)} {x : Except PyErr (Out × Source (ManagedReader.Status TextReader.Status))}
    (h : loadLoop (ManagedReader.send (TextReader.send F units)) ty out s = some x) : ∀ s', MTwin F units units' s s' →
    ∃ x', loadLoop (ManagedReader.send (TextReader.send F units')) ty out s' = some x' ∧ SameLoad F units units' x x' := by
  refine loadLoop.partial_correctness (ManagedReader.send (TextReader.send F units)) (fun ty out s x => ∀ s', MTwin F units units' s s' →
    ∃ x', loadLoop (ManagedReader.send (TextReader.send F units')) ty out s' = some x' ∧ SameLoad F units units' x x') ?_ ty out s x h
  intro f ih ty out s x h s' hs
  rw [loadLoop.eq_def]
  simp only [bind, Option.bind_eq_some_iff] at h
  obtain ⟨⟨y, t⟩, h1, h2⟩ := h
  obtain ⟨⟨y', t'⟩, h3, h4, h5⟩ := next_same hs h1
  dsimp only at h4 h5
  subst h4
  rw [h3]
  simp only [bind, Option.bind_some]
  cases y with
  | error err => cases h2; exact ⟨_, rfl, rfl⟩
  | ok e =>
    dsimp only at h2 ⊢
    by_cases c1 : e.eventType = ty
    · rw [if_pos c1] at h2 ⊢
      cases h2
      exact ⟨_, rfl, rfl, h5⟩
    · rw [if_neg c1] at h2 ⊢
      by_cases c2 : e.eventType = .containerStart
      · rw [if_pos c2] at h2 ⊢
        cases hc : newContainer e with
        | error err => rw [hc] at h2; cases h2; exact ⟨_, rfl, rfl⟩
        | ok c =>
          rw [hc] at h2
          dsimp only at h2 ⊢
          rw [Option.bind_eq_some_iff] at h2
          obtain ⟨z, h6, h7⟩ := h2
          obtain ⟨z', h8, h9⟩ := ih _ _ _ _ h6 _ h5
          rw [h8]
          simp only [Option.bind_some]
          cases z with
          | error err =>
            cases z' with
            | error err' =>
              cases h9; cases h7; exact ⟨_, rfl, rfl⟩
            | ok p => exact h9.elim
          | ok p =>
            cases z' with
            | error err' => exact h9.elim
            | ok p' =>
              obtain ⟨h10, h11⟩ := h9
              dsimp only at h7 ⊢
              rw [← h10]
              cases ha : out.add e (p.1.obj c.2.1 c.2.2) with
              | error err => rw [ha] at h7; cases h7; exact ⟨_, rfl, rfl⟩
              | ok out' => rw [ha] at h7; exact ih _ _ _ _ h7 _ h11
      · rw [if_neg c2] at h2 ⊢
        by_cases c3 : e.eventType = .scalar
        · rw [if_pos c3] at h2 ⊢
          cases hc : scalarObj e with
          | error err => rw [hc] at h2; cases h2; exact ⟨_, rfl, rfl⟩
          | ok v =>
            rw [hc] at h2
            dsimp only at h2 ⊢
            cases ha : out.add e v with
            | error err => rw [ha] at h2; cases h2; exact ⟨_, rfl, rfl⟩
            | ok out' => rw [ha] at h2; exact ih _ _ _ _ h2 _ h5
        · rw [if_neg c3] at h2 ⊢
          exact ih _ _ _ _ h2 _ h5

theorem from_sim {single : Bool} {s s' : Source (ManagedReader.Status TextReader.Status)} (hs : MTwin F units units' s s') {x : Except PyErr (List PyObj)}
    (h : loadFrom (ManagedReader.send (TextReader.send F units)) single s = some x) : loadFrom (ManagedReader.send (TextReader.send F units')) single s' = some x := by
  simp only [loadFrom, bind, Option.bind_eq_some_iff] at h ⊢
  obtain ⟨y, h1, h2⟩ := h
  obtain ⟨y', h3, h4⟩ := loop_sim h1 _ hs
  refine ⟨y', h3, ?_⟩
  cases y with
  | error err =>
    cases y' with
    | error err' => cases h4; exact h2
    | ok p => exact h4.elim
  | ok p =>
    cases y' with
    | error err' => exact h4.elim
    | ok p' => dsimp only at h2 ⊢; rw [← h4.1]; exact h2

/-- The same outcome of `load`, or none on both sides. -/
theorem load_same {single : Bool} {s s' : Source (ManagedReader.Status TextReader.Status)} (hs : MTwin F units units' s s') :
    loadFrom (ManagedReader.send (TextReader.send F units)) single s = loadFrom (ManagedReader.send (TextReader.send F units')) single s' := by
  cases h : loadFrom (ManagedReader.send (TextReader.send F units)) single s with
  | some x => rw [from_sim hs h]
  | none =>
    cases h' : loadFrom (ManagedReader.send (TextReader.send F units')) single s' with
    | none => rfl
    | some x => rw [from_sim hs.symm h'] at h; cases h

end
end Ion.Simple
