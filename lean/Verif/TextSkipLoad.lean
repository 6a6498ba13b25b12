import Verif.TextSkip
import Verif.LoadWhole
set_option linter.unusedSimpArgs false
/-!
# SKIP of the managed reader, on top of the text reader

The managed reader skips containers within local symbol tables.  A text whose reading comes to an exception comes to one also
for the managed reader, though it skips (`delivers_until_skips`).
-/
namespace Ion.TextReader.Whole
open Ion Ion.Queue Ion.TextReader Ion.TextReader.Calm
open Ion.RawReader (Cmd)

variable {F : FloatText} {s : St} {p l : List Nat} {units : Bytes → List Nat}

theorem yields_reach {e : IonEvent} {st2 : Status} {cs2 : List Bytes} {r r' : Except PyErr IonEvent × Status} {cs cs' : List Bytes} (h : Reach F units r cs r' cs') : ∀ st cmd, TextReader.send F units st cmd = r →
    (∀ st cmd, TextReader.send F units st cmd = r' → Yields (TextReader.send F units) IonEvent.eventType st cmd cs' e st2 cs2) → Yields (TextReader.send F units) IonEvent.eventType st cmd cs e st2 cs2 := by
  induction h with
  | refl => intro st cmd h1 h2; exact h2 _ _ h1
  | feed hs _ ih => intro st cmd h1 h2; exact .feed h1 (by rcases hs with rfl | rfl <;> rfl) hs (ih _ _ rfl h2)

theorem raises_reach {err : PyErr} {r r' : Except PyErr IonEvent × Status} {cs cs' : List Bytes} (h : Reach F units r cs r' cs') : ∀ st cmd, TextReader.send F units st cmd = r →
    (∀ st cmd, TextReader.send F units st cmd = r' → Raises (TextReader.send F units) IonEvent.eventType st cmd cs' err) → Raises (TextReader.send F units) IonEvent.eventType st cmd cs err := by
  induction h with
  | refl => intro st cmd h1 h2; exact h2 _ _ h1
  | feed hs _ ih => intro st cmd h1 h2; exact .feed h1 (by rcases hs with rfl | rfl <;> rfl) hs (ih _ _ rfl h2)

/-- What a request comes to, in terms of single commands. -/
def Comes (F : FloatText) (units : Bytes → List Nat) (r : Except PyErr IonEvent × Status) (cs : List Bytes) (o : Except PyErr IonEvent × Blocking.State Status) : Prop :=
  ∀ st cmd, TextReader.send F units st cmd = r →
    (∀ e st' cs', o = (.ok e, .active st' cs') → Yields (TextReader.send F units) IonEvent.eventType st cmd cs e st' cs') ∧
    (∀ err, err ≠ .modelFuel → o = (.error err, .dead) → Raises (TextReader.send F units) IonEvent.eventType st cmd cs err)

theorem Comes.reach {r r' : Except PyErr IonEvent × Status} {cs cs' : List Bytes} {o : Except PyErr IonEvent × Blocking.State Status} (h : Reach F units r cs r' cs') (hc : Comes F units r' cs' o) :
    Comes F units r cs o := by
  intro st cmd h1
  exact ⟨fun e st' cs' ho => yields_reach h _ _ h1 fun st cmd h2 => (hc st cmd h2).1 _ _ _ ho, fun err he ho => raises_reach h _ _ h1 fun st cmd h2 => (hc st cmd h2).2 _ he ho⟩

theorem eof_comes {depth : Int} {sk : Bool} (hd : 0 ≤ depth) {r : Except PyErr IonEvent × Status} {o : Except PyErr IonEvent × Blocking.State Status}
    (h : Blocking.atEofLoop (TextReader.send F units) IonEvent.eventType ION_STREAM_END_EVENT r = some o) {a : Act} {p l : List Nat} {opens : List IonType} {q : BufferQueue Nat} (hf : Fit opens a p l)
    (ho : sk = true → opens ≠ []) (hq : Held units q [] p l) (hr : r = rep F depth sk a q) : Comes F units r [] o := by
  refine Blocking.atEofLoop.partial_correctness (TextReader.send F units) IonEvent.eventType ION_STREAM_END_EVENT
    (fun r o => ∀ (a : Act) (p l : List Nat) (opens : List IonType) (q : BufferQueue Nat), Fit opens a p l → (sk = true → opens ≠ []) → Held units q [] p l → r = rep F depth sk a q → Comes F units r [] o)
    ?_ r o h a p l opens q hf ho hq hr
  rintro f ih r o h a p l opens q hf ho hq rfl
  obtain ⟨b, p1, l1, o1, h1, h2, h3, -, h4⟩ := way (F := F) hd hf ho
  obtain ⟨q1, cs1, h5, h6⟩ := h4 units q [] hq
  obtain ⟨e1, rfl⟩ := h6.done
  rw [e1] at h ⊢
  intro st cmd hst
  cases b with
  | err e =>
    rw [rep_err] at h hst; cases h
    exact ⟨by rintro e st' cs' ⟨⟩, by rintro err he ⟨⟩; exact .now hst⟩
  | emit e s =>
    rw [rep_emit h1] at h hst
    have he : Real e := h2.ok.1
    have h9 : e.eventType ≠ .streamEnd := by intro hc; rw [Real, hc] at he; simp [IonEventType.isStreamSignal] at he
    have h10 : e.eventType ≠ .incomplete := by intro hc; rw [Real, hc] at he; simp [IonEventType.isStreamSignal] at he
    simp only [h9, h10, if_false] at h
    cases h
    exact ⟨by rintro e st' cs' ⟨⟩; exact .now hst he, by rintro err he ⟨⟩⟩
  | read c f' k =>
    have h1 : l1 = [] := h1
    subst h1
    rw [rep_block (held_done h5).2] at h hst
    by_cases hk : (sk && c) = true
    · rw [if_pos hk] at h hst
      cases h
      exact ⟨by rintro e st' cs' ⟨⟩, by rintro err he ⟨⟩; exact .now hst⟩
    · rw [if_neg hk] at h hst
      cases c with
      | true => cases h; exact ⟨by rintro e st' cs' ⟨⟩, by rintro err he ⟨⟩⟩
      | false =>
        have h' : f (TextReader.send F units (.blocked false f' k q1 depth sk) .next) = some o := h
        have hc : Comes F units (TextReader.send F units (.blocked false f' k q1 depth sk) .next) [] o := by
          cases f' with
          | false => exact ih _ _ h' (.err .ionException) p1 [] o1 q1 ⟨trivial, raised_ion, trivial, h2.fine, trivial, trivial⟩ h3 h5 (by rw [rep_err]; rfl)
          | true =>
            obtain ⟨q3, h9, h10, h11⟩ := held_eof h5
            refine ih _ _ h' (k EOF) (EOF :: p1) [] o1 q3 ⟨h2.ok.2 rfl rfl, h2.safe EOF [] ⟨fun _ => rfl, trivial⟩ (.inl rfl), trivial, fine_eof h2.fine, h2.nest _, h2.level.2 _⟩ h3 h11 ?_
            exact rep_congr (by rw [advance.eq_def]; simp [h9, h10])
        obtain ⟨c1, c2⟩ := hc _ _ rfl
        exact ⟨fun e st' cs' ho => .flush hst rfl (.inr rfl) (c1 _ _ _ ho), fun err he ho => .flush hst rfl (.inr rfl) (c2 _ he ho)⟩
  | wait a =>
    have h1 : l1 = [] := h2.ok
    subst h1
    rw [rep_wait (held_done h5).2] at h hst
    cases sk with
    | true => cases h; exact ⟨by rintro e st' cs' ⟨⟩, by rintro err he ⟨⟩; exact absurd rfl he⟩
    | false => cases h; exact ⟨by rintro e st' cs' ⟨⟩, by rintro err he ⟨⟩⟩
  | unread c a => exact h1.elim
  | go s => exact h1.elim

/-- `Yields` and `Raises` from what the blocking caller gets. -/
theorem loop_comes {depth : Int} {sk : Bool} {a : Act} {opens : List IonType} {q : BufferQueue Nat} {cs : List Bytes} (hd : 0 ≤ depth) (hf : Fit opens a p l) (ho : sk = true → opens ≠ [])
    (hq : Held units q cs p l) : Comes F units (rep F depth sk a q) cs (loopOf F units (rep F depth sk a q) cs) := by
  obtain ⟨b, p1, l1, o1, h1, h2, h3, -, h4⟩ := way (F := F) hd hf ho
  obtain ⟨q1, cs1, h5, h6⟩ := h4 units q cs hq
  rw [h6.loop]
  refine Comes.reach h6 ?_
  have fin : l1 = [] → Comes F units (rep F depth sk b q1) cs1 (loopOf F units (rep F depth sk b q1) cs1) := by
    rintro rfl
    obtain ⟨rfl, _⟩ := held_done h5
    simp only [loopOf, Blocking.loop, Blocking.atEof]
    cases h : Blocking.atEofLoop (TextReader.send F units) IonEvent.eventType ION_STREAM_END_EVENT (rep F depth sk b q1) with
    | some o => exact eof_comes hd h h2 h3 h5 rfl
    | none => exact fun st cmd _ => ⟨by rintro e st' cs' ⟨⟩, by rintro err he ⟨⟩; exact absurd rfl he⟩
  cases b with
  | err e =>
    rw [rep_err, loop_error]
    exact fun st cmd hst => ⟨by rintro e st' cs' ⟨⟩, by rintro err he ⟨⟩; exact .now hst⟩
  | emit e s =>
    rw [rep_emit h1, loop_event h2.ok.1]
    exact fun st cmd hst => ⟨by rintro e st' cs' ⟨⟩; exact .now hst h2.ok.1, by rintro err he ⟨⟩⟩
  | read c f k => exact fin h1
  | wait a => exact fin h2.ok
  | unread c a => exact h1.elim
  | go s => exact h1.elim

/-- What a caller gets who skips where another reads these events and then an exception. -/
theorem skipping_reading {d : Int} (hd : 0 ≤ d) {err : PyErr} {o : Except PyErr IonEvent × Blocking.State Status} {es : List IonEvent} : ∀ {st : Status} {cs : List Bytes},
    Reading (TextReader.send F units) IonEvent.eventType st cs es (some err) → Skipping F units d o (.active st cs) →
    (∃ es1 e es2 st' cs', es = es1 ++ e :: es2 ∧ o = (.ok e, .active st' cs') ∧ Reading (TextReader.send F units) IonEvent.eventType st' cs' es2 (some err)) ∨ o = (.error err, .dead) := by
  induction es with
  | nil =>
    intro st cs hr hs
    cases hr with
    | raised hy =>
      have hf := skipping_follows hd hs
      have : ask F units (.active st cs) .next = (.error err, .dead) := raises_blocking _ hy
      rw [this] at hf
      cases hf with
      | error _ _ ho => exact .inr ho
  | cons e es ih =>
    intro st cs hr hs
    cases hr with
    | @cons _ _ _ st1 cs1 _ _ hy hr =>
      have hf := skipping_follows hd hs
      have : ask F units (.active st cs) .next = (.ok e, .active st1 cs1) := yields_blocking _ hy
      rw [this] at hf
      cases hf with
      | stops _ s q cs p l opens g1 g2 g3 g4 g5 g6 => exact .inl ⟨[], _, es, _, _, rfl, g6, hr⟩
      | on _ s q d' cs p l opens g1 g2 g3 g4 g5 g6 =>
        rcases ih hr ⟨_, s, q, d', _, p, l, opens, rfl, g3, g4, g5, g6⟩ with ⟨es1, e', es2, st', cs', rfl, h2, h3⟩ | h
        · exact .inl ⟨_ :: es1, e', es2, st', cs', rfl, h2, h3⟩
        · exact .inr h

/-- SKIP after the start of a container. -/
theorem skip_comes {d : Int} {err : PyErr} (he : err ≠ .modelFuel) {es : List IonEvent} {st : Status} {cs : List Bytes} (hr : Reading (TextReader.send F units) IonEvent.eventType st cs es (some err))
    (ht : Track units true (some d) (.active st cs)) :
    (∃ es1 e es2 st' cs' opened ld, es = es1 ++ e :: es2 ∧ Yields (TextReader.send F units) IonEvent.eventType st .skip cs e st' cs' ∧ Reading (TextReader.send F units) IonEvent.eventType st' cs' es2 (some err) ∧
      Track units (lastOpens opened e) (lastDepth ld e) (.active st' cs')) ∨ Raises (TextReader.send F units) IonEvent.eventType st .skip cs err := by
  obtain ⟨hd, hs⟩ := skipping_start (F := F) ht (by simp) (by simp)
  have hc : Comes F units (TextReader.send F units st .skip) cs (ask F units (.active st cs) .skip) := by
    cases ht with
    | @paused _ _ e s q depth cs p l opens h1 h2 h3 h4 h5 =>
      obtain ⟨h6, h7⟩ := h5 rfl
      have hn : ¬ (e.depth = some 0 ∧ e.eventType ≠ .containerStart) := fun hc => by
        rw [h4.1 hc] at h7
        simp at h7; omega
      have e1 : TextReader.send F units (.paused e s q depth) .skip = rep F depth true (.go s) q := by
        simp only [TextReader.send, if_neg hn]; rfl
      simp only [ask, Blocking.send]
      rw [e1]
      exact loop_comes h3 h2 (fun _ ho => by rw [ho] at h7; simp at h7; omega) h1
  obtain ⟨c1, c2⟩ := hc _ _ rfl
  rcases skipping_reading hd hr hs with ⟨es1, e, es2, st', cs', rfl, h2, h3⟩ | h
  · exact .inl ⟨es1, e, es2, st', cs', true, some d, rfl, c1 _ _ _ h2, h3, ask_track ht h2⟩
  · exact .inr (c2 _ he h)

end Ion.TextReader.Whole

namespace Ion.Simple
open Ion Ion.TextReader Ion.TextReader.Whole
open Ion.ManagedReader (Event Context Handler thunkEvent react)
open Ion.RawReader (Cmd)

variable {F : FloatText} {units : Bytes → List Nat}

/-- The managed reader asks for `NEXT`, or, after the start of a container, for `SKIP`. -/
theorem react_asks {ctx ctx' : Context} {h h' : Option Handler} {e : IonEvent} {cmd : Cmd} (hr : react ctx h e = .ok (.ask cmd ctx' h')) : cmd = .next ∨ cmd = .skip ∧ e.eventType = .containerStart := by
  have user : ∀ {h : Option Handler}, ManagedReader.onUser ctx h e = .ok (.ask cmd ctx' h') → cmd = .next := by
    intro h hu
    unfold ManagedReader.onUser at hu
    repeat' split at hu
    all_goals first | (cases hu; rfl) | cases hu
  unfold react at hr
  cases h with
  | none => exact .inl (user hr)
  | some hd =>
    dsimp only at hr
    split at hr
    · exact .inl (user hr)
    · generalize hx : ManagedReader.handle ctx hd e = x at hr
      cases x with
      | error err => cases hr
      | ok rep =>
        cases rep with
        | done c => cases hr; exact .inl rfl
        | ask cmd' hd' =>
          cases hr
          unfold ManagedReader.handle at hx
          split at hx
          · cases hx; exact .inl rfl
          · split at hx
            · unfold ManagedReader.onTable ManagedReader.inheritTable at hx
              dsimp only at hx
              repeat' split at hx
              all_goals first | (cases hx; exact .inl rfl) | (cases hx; exact .inr ⟨rfl, by assumption⟩) | cases hx
            · unfold ManagedReader.onSymbols at hx
              repeat' split at hx
              all_goals first | (cases hx; exact .inl rfl) | (cases hx; exact .inr ⟨rfl, by assumption⟩) | cases hx
            · unfold ManagedReader.onImports at hx
              repeat' split at hx
              all_goals first | (cases hx; exact .inl rfl) | (cases hx; exact .inr ⟨rfl, by assumption⟩) | cases hx
            · unfold ManagedReader.onDesc ManagedReader.endDesc at hx
              repeat' split at hx
              all_goals first | (cases hx; exact .inl rfl) | (cases hx; exact .inr ⟨rfl, by assumption⟩) | cases hx

/-- The caller of the managed reader gets an exception in the end, and no end of the stream before it. -/
def RaisesInTheEnd (F : FloatText) (units : Bytes → List Nat) (r : Option (Except PyErr Event × Source (ManagedReader.Status Status))) : Prop :=
  (∃ err, r = some (.error err, .dead)) ∨ ∃ e src1 out src2 err, r = some (.ok e, src1) ∧ e.eventType ≠ .streamEnd ∧ Delivers (ManagedReader.send (TextReader.send F units)) src1 out src2 ∧
    (∀ e ∈ out, e.eventType ≠ .streamEnd) ∧ nextEvent (ManagedReader.send (TextReader.send F units)) src2 = some (.error err, .dead)

theorem next_request {st : Status} {ctx : Context} {h : Option Handler} {cs : List Bytes} :
    nextEvent (ManagedReader.send (TextReader.send F units)) (.active (.live st ctx h) cs) = request (TextReader.send F units) (.live st ctx h) .next cs := rfl

theorem raises_until {err : PyErr} (he : err ≠ .modelFuel) (n : Nat) : ∀ {st : Status} {cmd : Cmd} {cs : List Bytes} {ctx : Context} {h : Option Handler},
    (Raises (TextReader.send F units) IonEvent.eventType st cmd cs err ∨ ∃ e st' cs' es opened ld, es.length < n ∧ Yields (TextReader.send F units) IonEvent.eventType st cmd cs e st' cs' ∧
      Reading (TextReader.send F units) IonEvent.eventType st' cs' es (some err) ∧ Track units (lastOpens opened e) (lastDepth ld e) (.active st' cs')) →
    RaisesInTheEnd F units (request (TextReader.send F units) (.live st ctx h) cmd cs) := by
  induction n with
  | zero =>
    rintro st cmd cs ctx h (hr | ⟨e, st', cs', es, opened, ld, hn, _⟩)
    · exact .inl ⟨err, request_raises hr⟩
    · omega
  | succ n ih =>
    rintro st cmd cs ctx h (hr | ⟨e, st', cs', es, opened, ld, hn, hy, hr, ht⟩)
    · exact .inl ⟨err, request_raises hr⟩
    · obtain ⟨hg, ha, hx⟩ := request_yields hy (ctx := ctx) (h := h)
      have hreal : e.eventType.isStreamSignal = false := by
        clear hg ha hx hr ht
        induction hy with
        | now _ h2 => exact h2
        | feed _ _ _ _ ih => exact ih
        | flush _ _ _ _ ih => exact ih
      have hne : e.eventType ≠ .streamEnd := by intro hc; rw [hc] at hreal; cases hreal
      have go : ∀ {ctx : Context} {h : Option Handler}, RaisesInTheEnd F units (request (TextReader.send F units) (.live st' ctx h) .next cs') := by
        intro ctx h
        refine ih ?_
        cases hr with
        | raised hy => exact .inl hy
        | @cons _ _ e1 st1 cs1 es _ hy1 hr =>
          refine .inr ⟨e1, st1, cs1, es, _, _, by simp at hn; omega, hy1, hr, ask_track ht (yields_blocking _ hy1)⟩
      cases hre : react ctx h e with
      | error err => exact .inl ⟨err, hx err hre⟩
      | ok act =>
        cases act with
        | give c1 h1 =>
          rcases go (ctx := c1) (h := h1) with ⟨err', h2⟩ | ⟨e2, src1, out, src2, err', h2, h3, h4, h5, h6⟩
          · exact .inr ⟨_, _, [], _, err', hg c1 h1 hre, hne, .nil _, by simp, h2⟩
          · refine .inr ⟨_, _, e2 :: out, src2, err', hg c1 h1 hre, hne, .cons _ _ _ _ _ h2 h4, ?_, h6⟩
            intro x hx
            rcases List.mem_cons.1 hx with rfl | hx
            · exact h3
            · exact h5 x hx
        | ask cmd' c1 h1 =>
          rcases react_asks hre with rfl | ⟨rfl, hst⟩
          · rw [ha c1 h1 hre]; exact go
          · have e1 : request (TextReader.send F units) (.live st ctx h) cmd cs = request (TextReader.send F units) (.live st' c1 h1) .skip cs' := by
              exact request_skips hy hre
            rw [e1]
            refine ih ?_
            have h1 : lastOpens opened e = true := by simp [lastOpens, hst]
            have h2 : ∃ d, lastDepth ld e = some d := by
              rw [h1] at ht
              cases ht with
              | paused _ _ _ _ h5 => exact ⟨_, (h5 rfl).1⟩
            obtain ⟨d, h2⟩ := h2
            rw [h1, h2] at ht
            rcases skip_comes he hr ht with ⟨es1, e', es2, st2, cs2, opened', ld', rfl, h3, h4, h5⟩ | h3
            · exact .inr ⟨e', st2, cs2, es2, opened', ld', by simp at hn; omega, h3, h4, h5⟩
            · exact .inl h3

/-- **`load` of a text whose reading raises**, symbol tables or not. -/
theorem load_of_reading_raises {err : PyErr} (he : err ≠ .modelFuel) {cs : List Bytes} {t : List Nat} {es : List IonEvent} {single : Bool} {ctx : Context} (hq : Held units .empty cs [] t) (hf : Whole.Fine t)
    (hl : Calm.EofLast t) (hr : Reading (TextReader.send F units) IonEvent.eventType .fresh cs es (some err)) :
    ∃ err', loadFrom (ManagedReader.send (TextReader.send F units)) single (.active (.live .fresh ctx none) cs) = some (.error err') := by
  have ht : Track units false none (.active .fresh cs) := .fresh hq hf hl
  have h := raises_until (F := F) he (es.length + 1) (st := .fresh) (cmd := .next) (cs := cs) (ctx := ctx) (h := none) (by
    cases hr with
    | raised hy => exact .inl hy
    | @cons _ _ e1 st1 cs1 es _ hy1 hr => exact .inr ⟨e1, st1, cs1, es, _, _, by simp; omega, hy1, hr, ask_track ht (yields_blocking _ hy1)⟩)
  rcases h with ⟨err', h⟩ | ⟨e, src1, out, src2, err', h1, h2, h3, h4, h5⟩
  · exact from_raises (.nil _) h (by simp)
  · refine from_raises (.cons _ _ _ _ _ h1 h3) h5 ?_
    intro x hx
    rcases List.mem_cons.1 hx with rfl | hx
    · exact h2
    · exact h4 x hx

end Ion.Simple
