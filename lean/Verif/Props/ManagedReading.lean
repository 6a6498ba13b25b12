import Verif.Props.ManagedReader
set_option linter.unusedSimpArgs false
/-!
# Properties C20, C21, C22, C23: what a user sees of a document with symbol tables
-/
namespace Ion.ManagedReader
open Ion Ion.RawReader Ion.Spec

section
variable {doc : Bytes} {all : List Top}

/-- The answer to `NEXT` at the top level. -/
def Answers (doc : Bytes) (all : List Top) (st : RawReader.Status) (ctx : Context) (cs : List Bytes) :
    Except PyErr (Option (Event × View)) → Prop
  | .error err => Fails st ctx none cs err
  | .ok none => ∃ st' ctx', pull RawReader.send (.live st ctx none) cs .next = some (.ok streamEndSeen, .live st' ctx' none, []) ∧
      Waiting st' ∧ Reached st'
  | .ok (some (e, v)) => ∃ st' ctx' cs', pull RawReader.send (.live st ctx none) cs .next = some (.ok e, .live st' ctx' none, cs') ∧
      At doc all st' cs' ⟨v.levels, v.top⟩ ∧ Means ctx' v.table ∧ ctx'.catalog = ctx.catalog ∧ Plain ctx.catalog v.table v.top

theorem Answers.goes {st st' : RawReader.Status} {ctx ctx' : Context} {cs cs' : List Bytes}
    {r : Except PyErr (Option (Event × View))} (h : Answers doc all st' ctx' cs' r) (hc : ctx'.catalog = ctx.catalog)
    (hp : pull RawReader.send (.live st ctx none) cs .next = pull RawReader.send (.live st' ctx' none) cs' .next) :
    Answers doc all st ctx cs r := by
  rcases r with err | _ | ⟨e, v⟩
  · simp only [Answers, Fails] at h ⊢; rw [hp]; exact h
  · simp only [Answers] at h ⊢; rw [hp]; exact h
  · simp only [Answers] at h ⊢; rw [hp, ← hc]; exact h

theorem give_next {st : RawReader.Status} {cs : List Bytes} {c c' : Cursor} {e : IonEvent} {ctx : Context}
    (hat : At doc all st cs c) (hn : c.next = some (e, c')) (hr : react ctx none e = .ok (.give ctx none)) :
    ∃ st' cs', pull RawReader.send (.live st ctx none) cs .next = some (.ok (thunkEvent ctx e), .live st' ctx none, cs') ∧
      At doc all st' cs' c' := by
  obtain ⟨st', cs', h1, h2⟩ := raw_next hat hn
  refine ⟨st', cs', ?_, h2⟩
  rw [pull_live hat.2, h1]
  simp only [processPull, hr]

/-- What the reader does with a value at the top level. -/
theorem react_value {ctx : Context} {t : Table} (hm : Means ctx t) (n : Node Nat) :
    react ctx none (n.event 0) = match n with
      | .scalar _ [] (.symbol s) => match t.find s with
        | .error err => .error err
        | .ok k => if k.text = some TEXT_ION_1_0 then .ok (.ask .next ctx none) else .ok (.give ctx none)
      | .cont _ (a :: _) .struct _ => match t.find a with
        | .error err => .error err
        | .ok k => if k.text = some TEXT_ION_SYMBOL_TABLE then .ok (.ask .next ctx (some {})) else .ok (.give ctx none)
      | _ => .ok (.give ctx none) := by
  cases n with
  | scalar f a x =>
    cases a with
    | cons a as => simp [react, onUser, Node.event, isTextMarker, startsTable]
    | nil =>
      cases x <;> simp [react, onUser, Node.event, isTextMarker, startsTable, Scalar.ty, pyValue]
      rename_i s
      rw [resolveValue_sid hm]
      cases t.find s with
      | error err => rfl
      | ok k =>
        simp only
        by_cases h : k.text = some TEXT_ION_1_0 <;> simp [h]
  | cont f a ty items =>
    cases a with
    | nil => cases ty <;> simp [react, onUser, Node.event, isTextMarker, startsTable, Context.hasTableAnnotation, CType.ty]
    | cons a as =>
      cases ty <;> simp [react, onUser, Node.event, isTextMarker, startsTable, Context.hasTableAnnotation, CType.ty]
      rw [resolve_sid hm]
      cases t.find a with
      | error err => rfl
      | ok k =>
        simp only
        by_cases h : k.text = some TEXT_ION_SYMBOL_TABLE <;> simp [h]

theorem visit_eq (v : View) (n : Node Nat) :
    Cursor.mk (View.visit v n).levels (View.visit v n).top = Cursor.visit ⟨v.levels, v.top⟩ n ∧ (View.visit v n).table = v.table ∧
      (View.visit v n).top = v.top := by
  cases n <;> exact ⟨rfl, rfl, rfl⟩

theorem give_top {st : RawReader.Status} {cs : List Bytes} {ctx : Context} {t : Table} {n : Node Nat} {ts : List Top}
    (hm : Means ctx t) (hat : At doc all st cs ⟨[], .value n :: ts⟩) (hp : Plain ctx.catalog t ts)
    (hr : react ctx none (n.event 0) = .ok (.give ctx none)) :
    Answers doc all st ctx cs (.ok (some (n.seen t 0, View.visit ⟨t, [], ts⟩ n))) := by
  obtain ⟨st', cs', h1, h2⟩ := give_next hat rfl hr
  obtain ⟨e1, e2, e3⟩ := visit_eq ⟨t, [], ts⟩ n
  refine ⟨st', ctx, cs', ?_, ?_, ?_, rfl, ?_⟩
  · rw [h1, thunkEvent_node hm]
  · rw [e1]; exact h2
  · rw [e2]; exact hm
  · rw [e2, e3]; exact hp

theorem top_loop (top : List Top) : ∀ {st : RawReader.Status} {cs : List Bytes} {ctx : Context} {t : Table},
    At doc all st cs ⟨[], top⟩ → Means ctx t → Catalog.Registered ctx.catalog → Plain ctx.catalog t top →
    Answers doc all st ctx cs (nextTop ctx.catalog t top) := by
  induction top with
  | nil =>
    intro st cs ctx t hat hm hc hp
    obtain ⟨st', h1, h2, h3⟩ := raw_end hat rfl
    refine ⟨st', ctx, ?_, h2, h3⟩
    rw [pull_live hat.2, h1]
    rfl
  | cons x ts ih =>
    intro st cs ctx t hat hm hc hp
    cases x with
    | marker =>
      obtain ⟨st', cs', h1, h2⟩ := ask_next hat rfl (ctx := ctx) (ctx' := { catalog := ctx.catalog }) (cmd := .next) (h := none)
        (h' := none) (by simp [react, onUser, ION_VERSION_MARKER_EVENT])
      exact (ih h1 (means_system _) hc hp).goes rfl h2
    | value n =>
      have hr := react_value hm n
      obtain ⟨hp1, hp2⟩ := hp
      have user (hs : systemValue ctx.catalog t n = .ok none) (hr : react ctx none (n.event 0) = .ok (.give ctx none)) :
          Answers doc all st ctx cs (nextTop ctx.catalog t (.value n :: ts)) := by
        simp only [nextTop, bind, Except.bind]
        rw [hs]
        exact give_top hm hat (hp2 t (.inr ⟨hs, rfl⟩)) hr
      cases n with
      | scalar f a x =>
        cases a with
        | cons a as => exact user rfl hr
        | nil =>
          cases x <;> first | exact user rfl hr | skip
          rename_i s
          simp only at hr
          cases hs : t.find s with
          | error err =>
            rw [hs] at hr
            simp only [nextTop, systemValue, Table.text, hs, bind, Except.bind]
            exact fail_next hat rfl hr
          | ok k =>
            rw [hs] at hr
            simp only at hr
            by_cases hk : k.text = some TEXT_ION_1_0
            · rw [if_pos hk] at hr
              have hsv : systemValue ctx.catalog t (.scalar f [] (.symbol s)) = .ok (some t) := by
                simp [systemValue, Table.text, hs, bind, Except.bind, hk, pure, Except.pure]
              obtain ⟨st', cs', h1, h2⟩ := ask_next hat rfl hr
              simp only [nextTop, bind, Except.bind]
              rw [hsv]
              exact (ih h1 hm hc (hp2 t (.inl hsv))).goes rfl h2
            · rw [if_neg hk] at hr
              exact user (by simp [systemValue, Table.text, hs, bind, Except.bind, hk, pure, Except.pure]) hr
      | cont f a ty items =>
        cases a with
        | nil => exact user (by cases ty <;> rfl) hr
        | cons a as =>
          cases ty with
          | list => exact user rfl hr
          | sexp => exact user rfl hr
          | struct =>
            simp only at hr
            cases hs : t.find a with
            | error err =>
              rw [hs] at hr
              simp only [nextTop, systemValue, Table.text, hs, bind, Except.bind]
              exact fail_next hat rfl hr
            | ok k =>
              rw [hs] at hr
              simp only at hr
              by_cases hk : k.text = some TEXT_ION_SYMBOL_TABLE
              · rw [if_pos hk] at hr
                have htext : t.text a = .ok (some TEXT_ION_SYMBOL_TABLE) := by
                  simp [Table.text, hs, bind, Except.bind, hk, pure, Except.pure]
                obtain ⟨st', cs', h1, h2⟩ := ask_next hat rfl hr
                have h3 := table_loop hm hc items h1 (d := {}) (imps := none) .none (hp1 f a as items rfl htext)
                have hsv : systemValue ctx.catalog t (.cont f (a :: as) .struct items)
                    = (Draft.fields ctx.catalog t {} items).map (fun d => some d.table) := by
                  simp only [systemValue, htext, bind, Except.bind, if_true, localTable, pure, Except.pure]
                  cases Draft.fields ctx.catalog t {} items <;> rfl
                simp only [nextTop, bind, Except.bind]
                rw [hsv]
                rw [hsv] at hp2
                cases hd : Draft.fields ctx.catalog t {} items with
                | error err =>
                  rw [hd] at h3
                  simp only [Fails] at h3
                  simp only [Except.map, Answers, Fails]
                  rw [h2]; exact h3
                | ok d =>
                  rw [hd] at h3 hp2
                  simp only at h3
                  obtain ⟨ctx', h4, h5, st2, cs2, h6, h7⟩ := h3
                  simp only [Except.map]
                  have hpl := hp2 d.table (.inl rfl)
                  rw [← h5] at hpl hc ⊢
                  exact (ih h6 h4 hc hpl).goes h5 (h2.trans h7)
              · rw [if_neg hk] at hr
                exact user (by simp [systemValue, Table.text, hs, bind, Except.bind, hk, pure, Except.pure]) hr

theorem react_inner (ctx : Context) (e : IonEvent) (d : Nat) (h : e.depth = some ((d + 1 : Nat) : Int)) :
    react ctx none e = .ok (.give ctx none) := by
  have : ¬ (((d + 1 : Nat) : Int) = 0) := by omega
  simp [react, onUser, h]
  omega

theorem react_end (ctx : Context) (d : Nat) (ty : CType) : react ctx none (endEvent d ty) = .ok (.give ctx none) := by
  simp only [react, onUser, endEvent, isTextMarker, startsTable, reduceCtorEq, if_false, false_and]
  by_cases h : (some ((d : Nat) : Int)) = some 0
  · have : ¬ (some ty.ty = some IonType.symbol) := by cases ty <;> simp [CType.ty]
    simp [h, this]
  · simp only [h, if_false]

/-- The managed reader answers every sequence of requests as the specification says. -/
theorem pulls_view (rs : List Request) : ∀ {st : RawReader.Status} {cs : List Bytes} {ctx : Context} {v : View},
    At doc all st cs ⟨v.levels, v.top⟩ → Means ctx v.table → Catalog.Registered ctx.catalog → Plain ctx.catalog v.table v.top →
    pulls RawReader.send (.live st ctx none) cs (rs.map toCmd) = some (v.run ctx.catalog rs) := by
  induction rs with
  | nil => intros; rfl
  | cons r rs ih =>
    intro st cs ctx v hat hm hc hp
    cases r with
    | skip =>
      simp only [List.map_cons, toCmd, pulls]
      obtain ⟨t, ls, ts⟩ := v
      cases ls with
      | nil =>
        rw [pull_live hat.2, raw_skip_none hat rfl]
        rfl
      | cons l ls =>
        obtain ⟨ty, items⟩ := l
        obtain ⟨st', cs', h1, h2⟩ := raw_skip hat rfl
        rw [pull_live hat.2, h1]
        simp only [processPull, react_end]
        rw [ih (v := ⟨t, ls, ts⟩) h2 hm hc hp]
        rfl
    | next =>
      simp only [List.map_cons, toCmd, pulls]
      obtain ⟨t, ls, ts⟩ := v
      cases ls with
      | nil =>
        have h := top_loop ts hat hm hc hp
        simp only [View.run, View.next]
        generalize nextTop ctx.catalog t ts = x at h ⊢
        rcases x with err | _ | ⟨e, v'⟩
        · obtain ⟨cs', h1⟩ := h
          rw [h1]
        · obtain ⟨st', ctx', h1, h2, h3⟩ := h
          rw [h1]
          simp only
          cases rs with
          | nil => rfl
          | cons r rs =>
            obtain ⟨q, stack, l, sk, b, tt, rfl⟩ := h2
            cases r <;> simp [pulls, toCmd, pull_live h3, RawReader.pull, RawReader.send, RawReader.absorb, processPull]
        · obtain ⟨st', ctx', cs', h1, h2, h3, h4, h5⟩ := h
          rw [h1]
          simp only
          rw [← h4] at hc h5
          rw [ih h2 h3 hc h5, h4]
          rfl
      | cons l ls =>
        obtain ⟨ty, items⟩ := l
        cases items with
        | nil =>
          obtain ⟨st', cs', h1, h2⟩ := give_next hat (ctx := ctx) rfl (react_end ctx _ ty)
          rw [h1]
          simp only
          rw [ih (v := ⟨t, ls, ts⟩) h2 hm hc hp]
          rfl
        | cons n ns =>
          obtain ⟨st', cs', h1, h2⟩ := give_next hat (ctx := ctx) rfl (react_inner ctx (n.event (ls.length + 1)) ls.length (by cases n <;> rfl))
          obtain ⟨e1, e2, e3⟩ := visit_eq ⟨t, (ty, ns) :: ls, ts⟩ n
          rw [h1]
          simp only
          rw [ih (v := View.visit ⟨t, (ty, ns) :: ls, ts⟩ n) (by rw [e1]; exact h2) (by rw [e2]; exact hm) hc (by rw [e2, e3]; exact hp),
            thunkEvent_node hm]
          rfl

end
end Ion.ManagedReader

/-! ## Evaluation of the reader on examples -/

namespace Ion.ManagedReader
open Ion Ion.RawReader Ion.Spec

/-- `send` with at most `n` rounds. -/
def sendFuel {R : Type} (raw : R → Cmd → Except PyErr IonEvent × R) : Nat → Status R → Cmd → Option (Except PyErr Event × Status R)
  | 0, _, _ => none
  | n + 1, st, cmd => match st with
    | .dead => some (.error .stopIteration, .dead)
    | .live r ctx h => match raw r cmd with
      | (.error err, _) => some (.error err, .dead)
      | (.ok e, r') => match react ctx h e with
        | .error err => some (.error err, .dead)
        | .ok (.give ctx' h') => some (.ok (thunkEvent ctx' e), .live r' ctx' h')
        | .ok (.ask cmd' ctx' h') => sendFuel raw n (.live r' ctx' h') cmd'

theorem sendFuel_send {R : Type} (raw : R → Cmd → Except PyErr IonEvent × R) (n : Nat) : ∀ (st : Status R) (cmd : Cmd) r,
    sendFuel raw n st cmd = some r → send raw st cmd = some r := by
  induction n with
  | zero => intro st cmd r h; cases h
  | succ n ih =>
    intro st cmd r h
    rw [send.eq_def]
    cases st with
    | dead => exact h
    | live r0 ctx hd =>
      simp only [sendFuel] at h
      simp only
      cases hraw : raw r0 cmd with
      | mk a r' =>
        rw [hraw] at h
        cases a with
        | error err => exact h
        | ok e =>
          simp only at h ⊢
          cases hre : react ctx hd e with
          | error err => rw [hre] at h; exact h
          | ok act =>
            rw [hre] at h
            cases act with
            | give => exact h
            | ask => exact ih _ _ _ h

/-- `pulls` with at most `n` rounds for each call, on the binary reader and unsplit input. -/
def runFuel (n : Nat) (st : Status RawReader.Status) : List Cmd → Option (List (Except PyErr Event))
  | [] => some []
  | cmd :: cmds => match sendFuel RawReader.send n st cmd with
    | none => none
    | some (.error err, _) => some [.error err]
    | some (.ok e, st') => (runFuel n st' cmds).map (.ok e :: ·)

/-- The calls of a user, until an exception. -/
def sends {R : Type} (raw : R → Cmd → Except PyErr IonEvent × R) (st : Status R) : List Cmd → Option (List (Except PyErr Event))
  | [] => some []
  | cmd :: cmds => match send raw st cmd with
    | none => none
    | some (.error err, _) => some [.error err]
    | some (.ok e, st') => (sends raw st' cmds).map (.ok e :: ·)

theorem runFuel_sends (n : Nat) (cmds : List Cmd) : ∀ (st : Status RawReader.Status) r, runFuel n st cmds = some r →
    sends RawReader.send st cmds = some r := by
  induction cmds with
  | nil => intro st r h; exact h
  | cons cmd cmds ih =>
    intro st r h
    simp only [runFuel] at h
    simp only [sends]
    cases hs : sendFuel RawReader.send n st cmd with
    | none => rw [hs] at h; cases h
    | some x =>
      obtain ⟨a, st'⟩ := x
      rw [hs] at h
      rw [sendFuel_send _ _ _ _ _ hs]
      cases a with
      | error err => exact h
      | ok e =>
        simp only at h ⊢
        cases hr : runFuel n st' cmds with
        | none => rw [hr] at h; cases h
        | some r' => rw [hr] at h; rw [ih _ _ hr]; exact h

/-! ## C20 -/

/-- A version marker at the top level. -/
def IsMarker (e : Event) : Prop := e.eventType = .versionMarker ∧ e.depth = some 0

/-- The symbol `$ion_1_0`, without annotations, at the top level. -/
def IsTextMarker (e : Event) : Prop :=
  e.depth = some 0 ∧ e.ionType = some .symbol ∧ e.annotations = .ok [] ∧ ∃ k, e.value = .ok (some (.sym k)) ∧ k.text = some TEXT_ION_1_0

/-- The start of a local symbol table: a struct at the top level whose first annotation is `$ion_symbol_table`. -/
def IsTable (e : Event) : Prop :=
  e.depth = some 0 ∧ e.eventType = .containerStart ∧ e.ionType = some .struct ∧
    ∃ k ks, e.annotations = .ok (k :: ks) ∧ k.text = some TEXT_ION_SYMBOL_TABLE

theorem onUser_give {ctx ctx' : Context} {h h' : Option Handler} {e : IonEvent} (hr : onUser ctx h e = .ok (.give ctx' h')) :
    ctx' = ctx ∧ h' = h ∧ (e.depth = some 0 → e.eventType ≠ .versionMarker ∧ isTextMarker ctx e = .ok false ∧ startsTable ctx e = .ok false) := by
  unfold onUser at hr
  split at hr
  · split at hr
    · split at hr <;> cases hr
    · rename_i hv
      split at hr
      · cases hr
      · split at hr <;> cases hr
      · rename_i hm
        split at hr
        · cases hr
        · split at hr <;> cases hr
        · rename_i ht
          cases hr
          exact ⟨rfl, rfl, fun _ => ⟨hv, hm, ht⟩⟩
  · rename_i hd
    cases hr
    exact ⟨rfl, rfl, fun h => absurd h hd⟩

theorem react_give {ctx ctx' : Context} {h h' : Option Handler} {e : IonEvent} (hr : react ctx h e = .ok (.give ctx' h')) :
    onUser ctx h e = .ok (.give ctx' h') ∧ (h.isSome = true → e.eventType.isStreamSignal = true) := by
  unfold react at hr
  cases h with
  | none => exact ⟨hr, by simp⟩
  | some hd =>
    simp only at hr
    split at hr
    · rename_i hs; exact ⟨hr, fun _ => hs⟩
    · split at hr <;> cases hr

theorem send_given {R : Type} (raw : R → Cmd → Except PyErr IonEvent × R) (st st' : Status R) (cmd : Cmd) (e : Event)
    (h : send raw st cmd = some (.ok e, st')) :
    ∃ e0 ctx hd r, st' = .live r ctx hd ∧ e = thunkEvent ctx e0 ∧ react ctx hd e0 = .ok (.give ctx hd) := by
  have key : ∀ (st : Status R) (cmd : Cmd) (r : Except PyErr Event × Status R), send raw st cmd = some r → ∀ e st', r = (.ok e, st') →
      ∃ e0 ctx hd r, st' = .live r ctx hd ∧ e = thunkEvent ctx e0 ∧ react ctx hd e0 = .ok (.give ctx hd) := by
    apply send.partial_correctness raw (fun st cmd r => ∀ e st', r = (.ok e, st') →
      ∃ e0 ctx hd r, st' = .live r ctx hd ∧ e = thunkEvent ctx e0 ∧ react ctx hd e0 = .ok (.give ctx hd))
    intro f ih st cmd r hr e st' he
    subst he
    cases st with
    | dead => cases hr
    | live r0 ctx hd =>
      simp only at hr
      cases hraw : raw r0 cmd with
      | mk a r' =>
        rw [hraw] at hr
        cases a with
        | error err => cases hr
        | ok e0 =>
          simp only at hr
          cases hre : react ctx hd e0 with
          | error err => rw [hre] at hr; cases hr
          | ok act =>
            rw [hre] at hr
            cases act with
            | give ctx1 h1 =>
              cases hr
              obtain ⟨g1, -⟩ := react_give hre
              obtain ⟨rfl, rfl, -⟩ := onUser_give g1
              exact ⟨e0, _, _, _, rfl, rfl, hre⟩
            | ask c1 ctx1 h1 => exact ih _ _ _ hr e st' rfl
  exact key st cmd _ h e st' rfl

/-- **C20** (safety, for every reader below and every history).  No call ever delivers a version marker, the symbol
`$ion_1_0` at the top level, or the start of a local symbol table; and while a local symbol table is being read (the reader
has a handler for it), the only events delivered are stream signals. -/
theorem C20_no_system_values {R : Type} (raw : R → Cmd → Except PyErr IonEvent × R) (st st' : Status R) (cmd : Cmd) (e : Event)
    (h : send raw st cmd = some (.ok e, st')) :
    ¬ IsMarker e ∧ ¬ IsTextMarker e ∧ ¬ IsTable e ∧
      (∀ r ctx hd, st' = .live r ctx (some hd) → e.eventType.isStreamSignal = true) := by
  obtain ⟨e0, ctx, hd, r, rfl, rfl, hre⟩ := send_given raw st st' cmd e h
  obtain ⟨g1, g2⟩ := react_give hre
  obtain ⟨-, -, g3⟩ := onUser_give g1
  refine ⟨?_, ?_, ?_, ?_⟩
  · rintro ⟨h1, h2⟩
    exact (g3 h2).1 h1
  · rintro ⟨h1, h2, h3, k, h4, h5⟩
    have hm := (g3 h1).2.1
    simp only [thunkEvent] at h2 h3 h4
    have ha : e0.annotations = [] := by
      cases hann : e0.annotations with
      | nil => rfl
      | cons a as =>
        rw [hann] at h3
        simp only [annotationsThunk] at h3
        cases hx : ctx.resolve a with
        | error err => rw [hx] at h3; cases h3
        | ok k1 =>
          rw [hx] at h3
          cases hy : annotationsThunk ctx as with
          | error err => rw [hy] at h3; cases h3
          | ok ks => rw [hy] at h3; cases h3
    simp only [isTextMarker, h2, ha, and_self, if_true] at hm
    simp only [valueThunk, h2, if_true] at h4
    cases hv : e0.value with
    | error err => rw [hv] at hm; cases hm
    | ok v =>
      rw [hv] at hm h4
      cases v with
      | none => cases h4
      | some v =>
        simp only at hm h4
        cases hres : ctx.resolveValue v with
        | error err => rw [hres] at hm; cases hm
        | ok k' =>
          rw [hres] at hm h4
          simp only [Except.ok.injEq, Option.some.injEq, PyVal.sym.injEq] at h4
          subst h4
          simp [h5] at hm
  · rintro ⟨h1, h2, h3, k, ks, h4, h5⟩
    have ht := (g3 h1).2.2
    simp only [thunkEvent] at h2 h3 h4
    simp only [startsTable, h2, h3, and_self, if_true] at ht
    cases hann : e0.annotations with
    | nil => rw [hann] at h4; cases h4
    | cons a as =>
      rw [hann] at h4 ht
      simp only [annotationsThunk] at h4
      simp only [Context.hasTableAnnotation] at ht
      cases hx : ctx.resolve a with
      | error err => rw [hx] at h4; cases h4
      | ok k1 =>
        rw [hx] at h4 ht
        cases hy : annotationsThunk ctx as with
        | error err => rw [hy] at h4; cases h4
        | ok ks' =>
          rw [hy] at h4
          simp only [Except.ok.injEq, List.cons.injEq] at h4
          obtain ⟨rfl, -⟩ := h4
          simp [h5] at ht
  · rintro r1 ctx1 hd1 h1
    cases h1
    exact g2 rfl

end Ion.ManagedReader

namespace Ion.Spec
open Ion Ion.ManagedReader

/-! ## Reading to the end -/

theorem events_cons (t : Table) (d : Nat) (n : Node Nat) : n.events t d = n.seen t d :: (n.events t d).tail := by
  cases n <;> simp [Node.events]

mutual
theorem run_visited (c : Catalog) (n : Node Nat) (v : View) (k : Nat) :
    (View.visit v n).run c (List.replicate ((n.events v.table v.levels.length).tail.length + k) .next) =
      ((n.events v.table v.levels.length).tail.map .ok) ++ v.run c (List.replicate k .next) := by
  cases n with
  | scalar f a x => simp [View.visit, Node.events]
  | cont f a ty items =>
    obtain ⟨t, ls, ts⟩ := v
    simp only [View.visit, Node.events, List.tail_cons]
    have := run_items c items ty ⟨t, ls, ts⟩ (k + 1)
    simp only at this
    rw [List.length_append, List.length_singleton]
    rw [show (eventsList t (ls.length + 1) items).length + 1 + k = (eventsList t (ls.length + 1) items).length + (k + 1) by omega,
      this, List.replicate_succ]
    simp [View.run, View.next, pure, Except.pure]

theorem run_items (c : Catalog) (items : List (Node Nat)) (ty : CType) (v : View) (k : Nat) :
    View.run c { v with levels := (ty, items) :: v.levels }
      (List.replicate ((eventsList v.table (v.levels.length + 1) items).length + k) .next) =
      ((eventsList v.table (v.levels.length + 1) items).map .ok) ++
        View.run c { v with levels := (ty, []) :: v.levels } (List.replicate k .next) := by
  cases items with
  | nil => simp [eventsList]
  | cons n ns =>
    obtain ⟨t, ls, ts⟩ := v
    have h1 := run_visited c n ⟨t, (ty, ns) :: ls, ts⟩ ((eventsList t (ls.length + 1) ns).length + k)
    have h2 := run_items c ns ty ⟨t, ls, ts⟩ k
    simp only [List.length_cons] at h1 h2
    simp only [eventsList]
    rw [events_cons t (ls.length + 1) n]
    simp only [List.cons_append, List.length_cons, List.length_append]
    rw [show (n.events t (ls.length + 1)).tail.length + (eventsList t (ls.length + 1) ns).length + 1 + k =
      ((n.events t (ls.length + 1)).tail.length + ((eventsList t (ls.length + 1) ns).length + k)) + 1 by omega, List.replicate_succ]
    simp only [View.run, View.next, pure, Except.pure]
    rw [h1, h2]
    simp
end

mutual
theorem events_kind (t : Table) (n : Node Nat) (d : Nat) : ∀ e ∈ n.events t d, e.eventType ≠ .streamEnd := by
  cases n with
  | scalar f a x => simp [Node.events, Node.seen]
  | cont f a ty items =>
    intro e he
    simp only [Node.events, List.mem_cons, List.mem_append, List.mem_singleton, List.not_mem_nil, or_false] at he
    rcases he with rfl | he | rfl
    · simp [Node.seen]
    · exact eventsList_kind t items (d + 1) e he
    · simp [endSeen]

theorem eventsList_kind (t : Table) (ns : List (Node Nat)) (d : Nat) : ∀ e ∈ eventsList t d ns, e.eventType ≠ .streamEnd := by
  cases ns with
  | nil => simp [eventsList]
  | cons n ns =>
    intro e he
    rcases List.mem_append.1 he with h | h
    · exact events_kind t n d e h
    · exact eventsList_kind t ns d e h
end

theorem run_top (c : Catalog) (ts : List Top) : ∀ (t : Table) (vs : List (Table × Node Nat)), userValues c t ts = .ok vs →
    View.run c ⟨t, [], ts⟩ (List.replicate ((vs.flatMap fun v => v.2.events v.1 0).length + 1) .next) =
      ((vs.flatMap fun v => v.2.events v.1 0) ++ [streamEndSeen]).map .ok := by
  induction ts with
  | nil =>
    intro t vs h
    cases h
    simp [View.run, View.next, nextTop]
  | cons x ts ih =>
    intro t vs h
    cases x with
    | marker =>
      have := ih systemTable vs h
      rw [← this]
      rw [List.replicate_succ]
      rfl
    | value n =>
      simp only [userValues, bind, Except.bind] at h
      cases hs : systemValue c t n with
      | error err => rw [hs] at h; cases h
      | ok o =>
        rw [hs] at h
        simp only at h
        cases o with
        | some t' =>
          have := ih t' vs h
          rw [← this, List.replicate_succ]
          simp only [View.run, View.next, nextTop, bind, Except.bind, hs]
        | none =>
          simp only at h
          cases hu : userValues c t ts with
          | error err => rw [hu] at h; cases h
          | ok rest =>
            rw [hu] at h
            cases h
            have h2 := ih t rest hu
            have h1 := run_visited c n ⟨t, [], ts⟩ ((rest.flatMap fun v => v.2.events v.1 0).length + 1)
            simp only [List.length_nil] at h1
            simp only [List.flatMap_cons]
            rw [events_cons t 0 n]
            simp only [List.cons_append, List.length_cons, List.length_append]
            rw [show (n.events t 0).tail.length + (rest.flatMap fun v => v.2.events v.1 0).length + 1 + 1 =
              (n.events t 0).tail.length + ((rest.flatMap fun v => v.2.events v.1 0).length + 1) + 1 by omega, List.replicate_succ]
            simp only [View.run, View.next, nextTop, bind, Except.bind, hs, pure, Except.pure]
            rw [h1, h2]
            simp

theorem plain_append {c : Catalog} (later : List Top) (ts : List Top) : ∀ (t : Table), Plain c t (ts ++ later) → Plain c t ts := by
  induction ts with
  | nil => intro t _; trivial
  | cons x ts ih =>
    intro t h
    cases x with
    | marker => exact ih systemTable h
    | value n => exact ⟨h.1, fun t' ht => ih t' (h.2 t' ht)⟩

/-- Splitting a document: what comes first is not affected by what comes later. -/
theorem userValues_append (c : Catalog) (later : List Top) (ts : List Top) : ∀ (t : Table) (vs : List (Table × Node Nat)),
    userValues c t (ts ++ later) = .ok vs → ∃ vs1 vs2, userValues c t ts = .ok vs1 ∧ vs = vs1 ++ vs2 := by
  induction ts with
  | nil => intro t vs h; exact ⟨[], vs, rfl, rfl⟩
  | cons x ts ih =>
    intro t vs h
    cases x with
    | marker => exact ih systemTable vs h
    | value n =>
      simp only [userValues, bind, Except.bind, List.cons_append] at h ⊢
      cases hs : systemValue c t n with
      | error err => rw [hs] at h; cases h
      | ok o =>
        rw [hs] at h
        simp only at h ⊢
        cases o with
        | some t' => exact ih t' vs h
        | none =>
          simp only at h ⊢
          cases hu : userValues c t (ts ++ later) with
          | error err => rw [hu] at h; cases h
          | ok rest =>
            rw [hu] at h
            cases h
            obtain ⟨vs1, vs2, h1, rfl⟩ := ih t rest hu
            rw [h1]
            exact ⟨_, vs2, rfl, rfl⟩

end Ion.Spec

namespace Ion.ManagedReader
open Ion Ion.RawReader Ion.Spec

/-- **C21, C20** (documents).  For every well-formed document, every split into chunks, every catalog and every sequence of
requests, a managed reader gives exactly the events of `View.run`: system values are passed over, and every symbol is
resolved in the table defined by the closest preceding version marker or symbol table.  Not covered: symbol tables on which
the code deviates from the specification (`Plain`). -/
theorem C21_symbols_resolved_in_force_partial (doc : Bytes) (segs : List (List (Node Nat))) (hs : IsStream doc segs)
    (hr : ∀ items ∈ segs, AllScalars Readable items) (cs : List Bytes) (hc : Chunks cs doc) (catalog : Catalog)
    (hcat : Catalog.Registered catalog) (hp : Plain catalog systemTable (tops segs)) (rs : List Request) :
    pulls RawReader.send (init catalog) cs (rs.map toCmd) = some (View.run catalog ⟨systemTable, [], tops segs⟩ rs) :=
  pulls_view rs (ctx := { catalog := catalog }) (v := ⟨systemTable, [], tops segs⟩)
    ⟨sees_init hs hr (by simp) hc, ⟨_, statusOk_init⟩⟩ (means_system catalog) hcat hp

/-- **C20** (completeness).  Reading a well-formed document with `NEXT` to its end gives all events of all values of the
user, in order, and then the end of the stream; nothing else. -/
theorem C20_all_user_values_of_plain_documents (doc : Bytes) (segs : List (List (Node Nat))) (hs : IsStream doc segs)
    (hr : ∀ items ∈ segs, AllScalars Readable items) (cs : List Bytes) (hc : Chunks cs doc) (catalog : Catalog)
    (hcat : Catalog.Registered catalog) (hp : Plain catalog systemTable (tops segs)) (vs : List (Table × Node Nat))
    (hu : userValues catalog systemTable (tops segs) = .ok vs) :
    pulls RawReader.send (init catalog) cs (List.replicate ((vs.flatMap fun v => v.2.events v.1 0).length + 1) .next) =
      some (((vs.flatMap fun v => v.2.events v.1 0) ++ [streamEndSeen]).map .ok) := by
  have := C21_symbols_resolved_in_force_partial doc segs hs hr cs hc catalog hcat hp
    (List.replicate ((vs.flatMap fun v => v.2.events v.1 0).length + 1) .next)
  rw [List.map_replicate] at this
  rw [show (Cmd.next) = toCmd .next from rfl, this, run_top catalog _ _ _ hu]

/-- **C21** (no retroactive effect).  If a document is continued, the events of the first part are the events of the first
part alone. -/
theorem C21_later_tables_do_not_matter (doc1 doc2 : Bytes) (segs1 segs2 : List (List (Node Nat))) (h1 : IsStream doc1 segs1)
    (h2 : IsStream doc2 segs2) (hr1 : ∀ items ∈ segs1, AllScalars Readable items) (hr2 : ∀ items ∈ segs2, AllScalars Readable items)
    (catalog : Catalog) (hcat : Catalog.Registered catalog) (hp : Plain catalog systemTable (tops (segs1 ++ segs2)))
    (vs : List (Table × Node Nat))
    (hu : userValues catalog systemTable (tops (segs1 ++ segs2)) = .ok vs) (cs cs1 : List Bytes)
    (hc : Chunks cs (doc1 ++ doc2)) (hc1 : Chunks cs1 doc1) :
    ∃ evs more, (∀ e ∈ evs, e.eventType ≠ .streamEnd) ∧
      pulls RawReader.send (init catalog) cs1 (List.replicate (evs.length + 1) .next) = some ((evs ++ [streamEndSeen]).map .ok) ∧
      pulls RawReader.send (init catalog) cs (List.replicate (evs.length + more.length + 1) .next)
        = some ((evs ++ more ++ [streamEndSeen]).map .ok) := by
  have hu' := hu
  rw [tops_append] at hu'
  obtain ⟨vs1, vs2, hu1, rfl⟩ := userValues_append catalog _ _ _ _ hu'
  refine ⟨vs1.flatMap fun v => v.2.events v.1 0, vs2.flatMap fun v => v.2.events v.1 0, ?_, ?_, ?_⟩
  · intro e he
    obtain ⟨v, -, hv⟩ := List.mem_flatMap.1 he
    exact (events_kind v.1 v.2 0 e hv)
  · exact C20_all_user_values_of_plain_documents doc1 segs1 h1 hr1 cs1 hc1 catalog hcat (plain_append _ _ _ (by rw [← tops_append]; exact hp)) vs1 hu1
  · have := C20_all_user_values_of_plain_documents (doc1 ++ doc2) (segs1 ++ segs2) (h1.append h2)
      (by intro items hi; exact (List.mem_append.1 hi).elim (hr1 _) (hr2 _)) cs hc catalog hcat hp _ hu
    simpa [List.flatMap_append] using this

end Ion.ManagedReader

namespace Ion.ManagedReader
open Ion Ion.RawReader Ion.Spec Ion.SymbolTable.Spec

/-! ## C22 -/

/-- **C22.**  A symbol ID without text beyond the table raises `IonException`; zero and every ID within range give the token
at that ID.  For every table that can be built. -/
theorem C22_symbol_ids (catalog : Catalog) (T : SymbolTable) (hT : Built T) (n : Nat) :
    (n > T.maxId → Context.resolve ⟨catalog, T⟩ (.tok ⟨none, some n, none⟩) = .error .ionException) ∧
    (n = 0 → Context.resolve ⟨catalog, T⟩ (.tok ⟨none, some n, none⟩) = .ok ⟨none, some 0, none⟩) ∧
    (0 < n → n ≤ T.maxId → ∃ tok, DefinedAt T n tok ∧ tok.sid = some n ∧
      Context.resolve ⟨catalog, T⟩ (.tok ⟨none, some n, none⟩) = .ok tok) := by
  obtain ⟨h1, h2, h3⟩ := SymbolTable.C17_get_sid T hT none
  simp only [SymbolTable.get] at h1 h2 h3
  refine ⟨?_, ?_, ?_⟩
  · intro h
    have := (h3 n (.inr (by omega))).1
    simp only [Context.resolve, this]
  · rintro rfl
    simp [Context.resolve, SymbolTable.getSid, SYMBOL_ZERO_TOKEN]
  · intro h0 hle
    obtain ⟨tok, g1, g2, g3⟩ := h2 n h0 hle
    exact ⟨tok, g1, g2, by simp only [Context.resolve, g3]⟩

/-- **C22** (events).  In a document, a symbol value whose ID is beyond the table in force raises `IonException` when its
value is read, and so do a field name and a list of annotations with such an ID. -/
theorem C22_events (t : Table) (d : Nat) (f : Option Nat) (a : List Nat) (x : Scalar Nat) :
    (∀ n, x = .symbol n → n > t.length → ((Node.scalar f a x).seen t d).value = .error .ionException) ∧
    (∀ n, f = some n → n > t.length → ((Node.scalar f a x).seen t d).fieldName = .error .ionException) ∧
    ((∃ n ∈ a, n > t.length) → ((Node.scalar f a x).seen t d).annotations = .error .ionException) := by
  have find : ∀ n, n > t.length → t.find n = .error .ionException := by
    intro n h
    unfold Table.find
    rw [if_neg (by omega), List.getElem?_eq_none (by omega)]
  have find' : ∀ n err, t.find n = .error err → err = .ionException := by
    intro n err h
    unfold Table.find at h
    split at h
    · cases h
    · split at h <;> cases h; rfl
  have findAll' : ∀ ns err, t.findAll ns = .error err → err = .ionException := by
    intro ns
    induction ns with
    | nil => intro err h; cases h
    | cons n ns ih =>
      intro err h
      simp only [Table.findAll, bind, Except.bind] at h
      cases hn : t.find n with
      | error e => rw [hn] at h; cases h; exact find' n _ hn
      | ok k =>
        rw [hn] at h
        simp only at h
        cases hns : t.findAll ns with
        | error e => rw [hns] at h; cases h; exact ih _ hns
        | ok ks => rw [hns] at h; cases h
  refine ⟨?_, ?_, ?_⟩
  · rintro n rfl h
    simp only [Node.seen, Table.value, find n h]; rfl
  · rintro n rfl h
    simp only [Node.seen, Table.field, find n h]; rfl
  · rintro ⟨n, hn, h⟩
    simp only [Node.seen]
    cases hres : t.findAll a with
    | error err => rw [findAll' a err hres]
    | ok ks =>
      exfalso
      have : ∀ (ns : List Nat) ks, t.findAll ns = .ok ks → ∀ n ∈ ns, ¬ n > t.length := by
        intro ns
        induction ns with
        | nil => intro ks _ n hn; cases hn
        | cons m ns ih =>
          intro ks hk n hn hgt
          simp only [Table.findAll, bind, Except.bind] at hk
          cases hm : t.find m with
          | error e => rw [hm] at hk; cases hk
          | ok k =>
            rw [hm] at hk
            simp only at hk
            cases hns : t.findAll ns with
            | error e => rw [hns] at hk; cases hk
            | ok ks' =>
              rcases List.mem_cons.1 hn with rfl | hn
              · rw [find n hgt] at hm; cases hm
              · exact ih _ hns n hn hgt
      exact this a ks hres n hn h

/-! ## C23 -/

/-- A local symbol table that appends: `$ion_symbol_table::{imports: $ion_symbol_table, symbols: [...]}`, written with the
system symbol IDs; it may have other annotations, and `imports` and `symbols` may have any annotations. -/
def appendNode (as1 as2 as3 : List Nat) (anns : List (List Nat)) (symbols : List Text) : Node Nat :=
  .cont none (3 :: as1) .struct [.scalar (some 6) as2 (.symbol 3),
    .cont (some 7) as3 .list (symbols.zipIdx.map fun (s, i) => .scalar none (anns.getD i []) (.string s))]

/-- A table in which the first nine IDs have the system texts (every table of a reader: `C21_tables_start_with_system`). -/
def StartsWithSystem (t : Table) : Prop := ∃ more, t = systemTable ++ more

theorem StartsWithSystem.text {t : Table} (h : StartsWithSystem t) : t.text 3 = .ok (some TEXT_ION_SYMBOL_TABLE) ∧
    t.text 6 = .ok (some TEXT_IMPORTS) ∧ t.text 7 = .ok (some TEXT_SYMBOLS) := by
  obtain ⟨more, rfl⟩ := h
  refine ⟨?_, ?_, ?_⟩ <;> simp [Table.text, Table.find, systemTable, List.zipIdx, bind, Except.bind, pure, Except.pure]

theorem draft_starts {c : Catalog} {t : Table} (ht : StartsWithSystem t) (fields : List (Node Nat)) : ∀ (d d' : Draft),
    StartsWithSystem d.base → Draft.fields c t d fields = .ok d' → StartsWithSystem d'.base := by
  induction fields with
  | nil => intro d d' h hd; cases hd; exact h
  | cons n ns ih =>
    intro d d' h hd
    simp only [Draft.fields, bind, Except.bind] at hd
    cases hf : d.field c t n with
    | error err => rw [hf] at hd; cases hd
    | ok d1 =>
      rw [hf] at hd
      refine ih d1 d' ?_ hd
      simp only [Draft.field, bind, Except.bind] at hf
      cases hn : t.fieldText n.field with
      | error err => rw [hn] at hf; cases hf
      | ok name =>
        rw [hn] at hf
        simp only at hf
        unfold Draft.named at hf
        split at hf
        · split at hf
          · cases hf; exact h
          · split at hf
            · simp only [bind, Except.bind] at hf
              cases hi : importAll c t _ with
              | error err => rw [hi] at hf; cases hf
              | ok tabs => rw [hi] at hf; cases hf; exact ⟨_, rfl⟩
            · cases hf; exact h
        · split at hf
          · simp only [bind, Except.bind] at hf
            cases hi : t.text _ with
            | error err => rw [hi] at hf; cases hf
            | ok text =>
              rw [hi] at hf
              simp only at hf
              split at hf
              · cases hf; exact ht
              · cases hf; exact h
          · cases hf; exact h
        · split at hf
          · cases hf
          · cases hf; exact h
        · cases hf; exact h

/-- Every table that is ever in force starts with the nine system symbols, so `$ion_symbol_table` can always be named. -/
theorem C21_tables_start_with_system (c : Catalog) (ts : List Top) : ∀ (t : Table) (vs : List (Table × Node Nat)),
    StartsWithSystem t → userValues c t ts = .ok vs → ∀ v ∈ vs, StartsWithSystem v.1 := by
  induction ts with
  | nil => intro t vs _ h; cases h; simp
  | cons x ts ih =>
    intro t vs ht h
    cases x with
    | marker => exact ih systemTable vs ⟨[], by simp⟩ h
    | value n =>
      simp only [userValues, bind, Except.bind] at h
      cases hs : systemValue c t n with
      | error err => rw [hs] at h; cases h
      | ok o =>
        rw [hs] at h
        simp only at h
        cases o with
        | some t' =>
          refine ih t' vs ?_ h
          unfold systemValue at hs
          split at hs
          · simp only [bind, Except.bind] at hs
            split at hs
            · cases hs
            · split at hs
              · simp only [pure, Except.pure, Except.ok.injEq, Option.some.injEq] at hs; rw [← hs]; exact ht
              · cases hs
          · simp only [bind, Except.bind] at hs
            split at hs
            · cases hs
            · split at hs
              · simp only [localTable, bind, Except.bind, pure, Except.pure] at hs
                cases hd : Draft.fields c t {} _ with
                | error err => rw [hd] at hs; cases hs
                | ok d =>
                  rw [hd] at hs
                  cases hs
                  obtain ⟨more, hm⟩ := draft_starts ht _ _ _ ⟨[], by simp⟩ hd
                  exact ⟨more ++ d.symbols.map fun s => (s, none), by simp only [Draft.table, hm]; simp⟩
              · cases hs
          · cases hs
        | none =>
          simp only at h
          cases hu : userValues c t ts with
          | error err => rw [hu] at h; cases h
          | ok rest =>
            rw [hu] at h
            cases h
            intro v hv
            rcases List.mem_cons.1 hv with rfl | hv
            · exact ht
            · exact ih t rest ht hu v hv

/-- **C23** (reader).  After such a table, every ID of the table in force before keeps its meaning, and the new symbols get
the next IDs; for every such document and every continuation of it (`C21` says that the reader follows `userValues`). -/
theorem C23_append_in_document (catalog : Catalog) (t : Table) (ht : StartsWithSystem t) (as1 as2 as3 : List Nat)
    (anns : List (List Nat)) (symbols : List Text) (rest : List Top) :
    userValues catalog t (.value (appendNode as1 as2 as3 anns symbols) :: rest) =
      userValues catalog (t ++ symbols.map fun s => (some s, none)) rest ∧
    (∀ n ≤ t.length, (t ++ symbols.map fun s => ((some s, none) : Meaning)).find n = t.find n) ∧
    (∀ i (hi : i < symbols.length), (t ++ symbols.map fun s => ((some s, none) : Meaning)).find (t.length + 1 + i) =
      .ok ⟨some symbols[i], some (t.length + 1 + i), none⟩) := by
  obtain ⟨h3, h6, h7⟩ := ht.text
  refine ⟨?_, ?_, ?_⟩
  · have e : (symbols.zipIdx.map fun (s, i) => Node.scalar none (anns.getD i []) (.string s)).map declared = symbols.map some := by
      apply List.ext_getElem
      · simp
      · intro i h1 h2
        simp [declared]
    have hsv : systemValue catalog t (appendNode as1 as2 as3 anns symbols) = .ok (some (t ++ symbols.map fun s => (some s, none))) := by
      simp only [appendNode, systemValue, h3, bind, Except.bind, if_true, localTable, Draft.fields, Draft.field, Node.field,
        Table.fieldText, h6, h7, Draft.named, pure, Except.pure]
      have : ¬ (some TEXT_SYMBOLS = some TEXT_IMPORTS) := by decide
      simp only [this, if_false, e, Draft.table, List.nil_append, List.map_map]
      rfl
    simp only [userValues, hsv, bind, Except.bind]
  · intro n hn
    unfold Table.find
    by_cases h0 : n = 0
    · simp [h0]
    · rw [if_neg h0, if_neg h0, List.getElem?_append_left (by omega)]
  · intro i hi
    unfold Table.find
    rw [if_neg (by omega), List.getElem?_append_right (by omega)]
    have : t.length + 1 + i - 1 - t.length = i := by omega
    rw [this, List.getElem?_map, List.getElem?_eq_getElem hi]
    rfl

/-! ## Where the code deviates -/

/-- Non-string elements of `symbols` should occupy an ID (with unknown text); the code drops them, so the IDs of the symbols
after them are too low: here `$ion_symbol_table::{symbols: [1, "a"]}` and then the symbol with ID 11 (`a`, by the
specification) cannot be resolved, while ID 10 reads as `a`. -/
theorem C21_non_string_symbols_shift_ids :
    sends RawReader.send init [.next, .data [0xE0, 0x01, 0x00, 0xEA, 0xE9, 0x81, 0x83, 0xD6, 0x87, 0xB4, 0x21, 0x01, 0x81, 0x61,
        0x71, 0x0B, 0x71, 0x0A], .next] =
      some [.ok streamEndSeen,
        .error .ionException, ] ∧
    sends RawReader.send init [.next, .data [0xE0, 0x01, 0x00, 0xEA, 0xE9, 0x81, 0x83, 0xD6, 0x87, 0xB4, 0x21, 0x01, 0x81, 0x61,
        0x71, 0x0A], .next] =
      some [.ok streamEndSeen,
        .ok ⟨.scalar, some .symbol, .ok (some (.sym ⟨some [0x61], some 10, none⟩)), .ok none, .ok [], some 0⟩,
        .ok streamEndSeen] :=
  ⟨runFuel_sends 20 _ _ _ (by decide +kernel), runFuel_sends 20 _ _ _ (by decide +kernel)⟩

end Ion.ManagedReader

/-! ## The hypotheses can be met -/
namespace Ion.ManagedReader
open Ion Ion.RawReader Ion.Spec

/-- `$ion_symbol_table::{symbols: ["a"]}` and the symbol with ID 10. -/
def sampleItems : List (Node Nat) :=
  [.cont none [3] .struct [.cont (some 7) [] .list [.scalar none [] (.string [0x61])]], .scalar none [] (.symbol 10)]

def sampleBytes : Bytes := [0xE7, 0x81, 0x83, 0xD4, 0x87, 0xB2, 0x81, 0x61, 0x71, 0x0A]

theorem sample_items : IsItems false sampleBytes sampleItems := by
  have h1 : IsItems false [0x81, 0x61] [.scalar none [] (.string [0x61])] :=
    .scalar false [] [0x81, 0x61] [0x81, 0x61] [] none [] (.string [0x61]) [] .none
      (.string _ [0x61] _ (.short 0x81 [0x61] (by decide) (by decide)) (by decide)) (.bare _) (.nil _)
  have h2 : IsItems true [0x87, 0xB2, 0x81, 0x61] [.cont (some 7) [] .list [.scalar none [] (.string [0x61])]] :=
    .cont true [0x87] [0x81, 0x61] [0xB2, 0x81, 0x61] [0xB2, 0x81, 0x61] [] (some 7) [] .list _ [] false (.some _ 7 ⟨.last _ (by decide), by decide⟩) h1
      (by simp) (.list _ _ _ (.short 0xB2 [0x81, 0x61] (by decide) (by decide))) (.bare _) (.nil _)
  have h3 : IsItems false [0x71, 0x0A] [.scalar none [] (.symbol 10)] :=
    .scalar false [] [0x71, 0x0A] [0x71, 0x0A] [] none [] (.symbol 10) [] .none
      (.symbol _ [0x0A] (.short 0x71 [0x0A] (by decide) (by decide))) (.bare _) (.nil _)
  exact .cont false [] [0x87, 0xB2, 0x81, 0x61] [0xD4, 0x87, 0xB2, 0x81, 0x61] [0xE7, 0x81, 0x83, 0xD4, 0x87, 0xB2, 0x81, 0x61]
    [0x71, 0x0A] none [3] .struct _ _ false .none h2 (by simp) (.struct _ _ _ (.short 0xD4 [0x87, 0xB2, 0x81, 0x61] (by decide) (by decide)))
    (.wrapper [3] [0x81] [0x83] _ _ (by simp) (.cons [0x83] [] 3 [] ⟨.last _ (by decide), by decide⟩ .nil) ⟨.last _ (by decide), by decide⟩
      (.short 0xE7 _ (by decide) (by decide))) h3

theorem sample_stream : IsStream ([0xE0, 0x01, 0x00, 0xEA] ++ sampleBytes) [sampleItems] := by
  have := IsStream.segment sampleBytes [] sampleItems [] sample_items .nil
  simpa using this

theorem sample_readable : ∀ items ∈ [sampleItems], AllScalars Readable items := by
  intro items h
  simp only [List.mem_singleton] at h
  subst h
  exact .cont _ _ _ _ _ (.cont _ _ _ _ _ (.scalar _ _ _ _ trivial .nil) .nil) (.scalar _ _ _ _ trivial .nil)

theorem registered_empty : Catalog.Registered [] := ⟨[], by simp, rfl⟩

theorem sample_table : systemValue [] systemTable (sampleItems.getD 0 (.scalar none [] (.bool true))) =
    .ok (some (systemTable ++ [(some [0x61], none)])) := rfl

theorem sample_plain : Plain [] systemTable (tops [sampleItems]) := by
  refine ⟨?_, ?_⟩
  · intro f b as fields h _ m hm
    cases h
    simp only [List.mem_singleton] at hm
    subst hm
    intro _ n hn
    simp only [List.mem_singleton] at hn
    subst hn
    exact ⟨_, _, _, rfl, rfl⟩
  · intro t' h
    refine ⟨?_, ?_⟩
    · intro f b as fields h; cases h
    · intros; trivial

theorem sample_values : userValues [] systemTable (tops [sampleItems]) =
    .ok [(systemTable ++ [(some [0x61], none)], .scalar none [] (.symbol 10))] := rfl

/-- The managed reader on the sample, in two chunks: one symbol, with text `a`, and the end. -/
example : pulls RawReader.send (init []) [[0xE0, 0x01, 0x00, 0xEA, 0xE7, 0x81], [0x83, 0xD4, 0x87, 0xB2, 0x81, 0x61, 0x71, 0x0A]] [.next, .next] =
    some [.ok ⟨.scalar, some .symbol, .ok (some (.sym ⟨some [0x61], some 10, none⟩)), .ok none, .ok [], some 0⟩, .ok streamEndSeen] :=
  C20_all_user_values_of_plain_documents _ _ sample_stream sample_readable _ ⟨rfl, by decide⟩ [] registered_empty sample_plain _ sample_values

example : StartsWithSystem (systemTable ++ [(some [0x61], none)]) := ⟨_, rfl⟩

end Ion.ManagedReader
