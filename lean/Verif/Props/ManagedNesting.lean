import Verif.ManagedNesting
import Verif.TextCalls
set_option linter.unusedSimpArgs false
/-!
# C55: the events of the managed reader are well nested; C20: every event of the user is delivered

For any input, Ion or not, and any history of requests.
-/
namespace Ion.ManagedReader
open Ion Ion.Spec
open Ion.RawReader (Cmd)

section
variable {R : Type} {raw : R → Cmd → Except PyErr IonEvent × R} {strict : Bool} {Inv : List IonType → Bool → Bool → R → Prop}

/-- The managed reader answers these requests with these events. -/
inductive Calls (raw : R → Cmd → Except PyErr IonEvent × R) : Status R → List Cmd → List Event → Status R → Prop
  | nil (S : Status R) : Calls raw S [] [] S
  | cons {S S1 S2 : Status R} {cmd : Cmd} {cmds : List Cmd} {e : Event} {es : List Event} : send raw S cmd = some (.ok e, S1) → Calls raw S1 cmds es S2 → Calls raw S (cmd :: cmds) (e :: es) S2

/-- A reader that keeps a list of the events it has delivered. -/
def logged (raw : R → Cmd → Except PyErr IonEvent × R) (st : R × List IonEvent) (cmd : Cmd) : Except PyErr IonEvent × (R × List IonEvent) :=
  match raw st.1 cmd with
  | (.ok e, st') => (.ok e, (st', st.2 ++ [e]))
  | (.error err, st') => (.error err, (st', st.2))

/-- Whenever `SKIP` is sent, the last start or end of a container that was delivered to the user is a start. -/
def SkipsAfterStart (opened : Bool) : List Cmd → List IonEventType → Prop
  | cmd :: cmds, t :: ts => (cmd = .skip → opened = true) ∧ SkipsAfterStart (lastStarts opened t) cmds ts
  | _, _ => True

theorem before_of {opens : List IonType} {opened : Bool} {st : R} {ctx : Context} {h : Option Handler} {cmd : Cmd} {e : Event} {S' : Status R} (hs : StatusOk raw Inv opens opened (.live st ctx h))
    (hc : cmd = .skip → strict = true ∨ opened = true) (hr : send raw (.live st ctx h) cmd = some (.ok e, S')) : Before strict Inv opens opened st cmd h := by
  cases h with
  | none => exact ⟨hs.1, hs.2.1, hc, hs.2.2⟩
  | some hd =>
    obtain ⟨h1, h2, h3, h4⟩ := hs
    have hne : cmd ≠ .skip := by
      rintro rfl
      rw [send.eq_def] at hr
      dsimp only at hr
      cases hraw : raw st .skip with
      | mk a st1 =>
        rw [hraw] at hr
        cases a with
        | error err => cases hr
        | ok x => exact h3 x st1 hraw
    refine ⟨h1, h2, ?_⟩
    cases hsk : hd.skipping with
    | true =>
      simp only [hsk, if_true] at h4 ⊢
      obtain ⟨ty, o, h5⟩ := h4
      exact ⟨ty, o, true, h5, .inl rfl, fun h => absurd h hne⟩
    | false =>
      simp only [hsk, Bool.false_eq_true, if_false] at h4 ⊢
      exact ⟨h4, hne⟩

/-- Any history: the events are nested, and they are those of the user. -/
theorem calls_nest (N : Nests raw strict Inv) {G : R → List IonEvent → Prop} (hG : ∀ {st st' : R} {cmd : Cmd} {e : IonEvent} {l : List IonEvent}, G st l → raw st cmd = (.ok e, st') → G st' (l ++ [e]))
    {catalog : Catalog} {S S' : Status R} {cmds : List Cmd} {es : List Event} (h : Calls raw S cmds es S') : ∀ {st : R} {ctx : Context} {hd : Option Handler}, S = .live st ctx hd →
    ∀ {opens : List IonType} {opened : Bool} {l : List IonEvent} {out : List Event}, StatusOk raw Inv opens opened S → (strict = true ∨ SkipsAfterStart opened cmds (es.map (·.eventType))) → G st l →
    Surfaced catalog l out ctx hd.isSome → (nestUserAll strict opens es).isSome = true ∧ ∃ st' ctx' h' l', S' = .live st' ctx' h' ∧ G st' l' ∧ Surfaced catalog l' (out ++ es) ctx' h'.isSome := by
  induction h with
  | nil S =>
    rintro st ctx hd rfl opens opened l out _ _ hg hs
    exact ⟨rfl, st, ctx, hd, l, rfl, hg, by simpa using hs⟩
  | @cons S S1 S2 cmd cmds e es h1 _ ih =>
    rintro st ctx hd rfl opens opened l out hok hsk hg hs
    have hc : cmd = .skip → strict = true ∨ opened = true := fun h => hsk.imp id fun k => k.1 h
    obtain ⟨opens', g1, g2, st', ctx', h', l', rfl, g4, g5⟩ := send_nests N hG h1 rfl rfl (before_of hok hc h1) hg hs
    obtain ⟨k1, k2⟩ := ih rfl g2 (hsk.imp id fun k => k.2) g4 g5
    refine ⟨by simp only [nestUserAll, g1, Option.bind_some]; exact k1, ?_⟩
    simpa using k2

theorem logged_nests (N : Nests raw strict Inv) : Nests (logged raw) strict (fun opens opened sk st => Inv opens opened sk st.1) where
  real := by
    rintro opens opened sk ⟨st, l⟩ ⟨st', l'⟩ cmd e hi hc hr he
    unfold logged at hr
    split at hr
    · rename_i heq; cases hr; exact N.real hi hc heq he
    · cases hr
  signal := by
    rintro opens opened sk ⟨st, l⟩ ⟨st', l'⟩ cmd e hi hc hr he
    unfold logged at hr
    split at hr
    · rename_i heq
      cases hr
      obtain ⟨h1, h2, h3, h4⟩ := N.signal hi hc heq he
      refine ⟨h1, h2, h3, ?_⟩
      rintro e2 st2 hcc
      unfold logged at hcc
      split at hcc
      · rename_i heq2; exact h4 _ _ heq2
      · cases hcc
    · cases hr

/-- The log does not change what the managed reader does. -/
theorem send_logged {S S' : Status R} {cmd : Cmd} {e : Event} (h : send raw S cmd = some (.ok e, S')) : ∀ {st : R} {ctx : Context} {hd : Option Handler} (l : List IonEvent), S = .live st ctx hd →
    ∃ st' ctx' hd' l', S' = .live st' ctx' hd' ∧ send (logged raw) (.live (st, l) ctx hd) cmd = some (.ok e, .live (st', l') ctx' hd') := by
  have key : ∀ {S : Status R} {cmd : Cmd} {r : Except PyErr Event × Status R}, send raw S cmd = some r → ∀ {e : Event} {S' : Status R}, r = (.ok e, S') → ∀ {st : R} {ctx : Context} {hd : Option Handler}
      (l : List IonEvent), S = .live st ctx hd → ∃ st' ctx' hd' l', S' = .live st' ctx' hd' ∧ send (logged raw) (.live (st, l) ctx hd) cmd = some (.ok e, .live (st', l') ctx' hd') := by
    intro S cmd r h
    refine send.partial_correctness raw (fun S cmd r => ∀ {e : Event} {S' : Status R}, r = (.ok e, S') → ∀ {st : R} {ctx : Context} {hd : Option Handler}
      (l : List IonEvent), S = .live st ctx hd → ∃ st' ctx' hd' l', S' = .live st' ctx' hd' ∧ send (logged raw) (.live (st, l) ctx hd) cmd = some (.ok e, .live (st', l') ctx' hd')) ?_ S cmd r h
    rintro f ih S cmd r hr e S' rfl st ctx hd l rfl
    dsimp only at hr
    rw [send.eq_def]
    dsimp only [logged]
    cases hraw : raw st cmd with
    | mk a st1 =>
      rw [hraw] at hr
      cases a with
      | error err => cases hr
      | ok x =>
        dsimp only at hr ⊢
        cases hre : react ctx hd x with
        | error err => rw [hre] at hr; cases hr
        | ok act =>
          rw [hre] at hr
          cases act with
          | give c1 h1 => cases hr; exact ⟨_, _, _, _, rfl, rfl⟩
          | ask cmd1 c1 h1 => exact ih _ _ _ hr rfl _ rfl
  intro st ctx hd l hS
  exact key h rfl l hS

theorem calls_logged {S S' : Status R} {cmds : List Cmd} {es : List Event} (h : Calls raw S cmds es S') : ∀ {st : R} {ctx : Context} {hd : Option Handler} (l : List IonEvent), S = .live st ctx hd →
    ∃ st' ctx' hd' l', S' = .live st' ctx' hd' ∧ Calls (logged raw) (.live (st, l) ctx hd) cmds es (.live (st', l') ctx' hd') := by
  induction h with
  | nil S => rintro st ctx hd l rfl; exact ⟨_, _, _, _, rfl, .nil _⟩
  | cons h1 _ ih =>
    rintro st ctx hd l rfl
    obtain ⟨st1, ctx1, hd1, l1, rfl, h2⟩ := send_logged h1 l rfl
    obtain ⟨st', ctx', hd', l', rfl, h3⟩ := ih l1 rfl
    exact ⟨_, _, _, _, rfl, .cons h2 h3⟩

/-- Everything together. -/
theorem calls_surface (N : Nests raw strict Inv) {catalog : Catalog} {st : R} (hi : ∃ sk, Inv [] false sk st) {S' : Status R} {cmds : List Cmd} {es : List Event}
    (h : Calls raw (.live st { catalog := catalog } none) cmds es S') (hs : strict = true ∨ SkipsAfterStart false cmds (es.map (·.eventType))) :
    (nestUserAll strict [] es).isSome = true ∧ ∃ st' ctx hd below, S' = .live st' ctx hd ∧
      Calls (logged raw) (.live (st, []) { catalog := catalog } none) cmds es (.live (st', below) ctx hd) ∧ Surfaced catalog below es ctx hd.isSome := by
  obtain ⟨st', ctx, hd, below, rfl, h1⟩ := calls_logged h [] rfl
  obtain ⟨h2, st2, ctx2, hd2, l2, h3, h4, h5⟩ := calls_nest (logged_nests N) (G := fun st l => st.2 = l) (by
    rintro ⟨st, l0⟩ ⟨st', l'⟩ cmd e l rfl hr
    unfold logged at hr
    split at hr
    · cases hr; rfl
    · cases hr) h1 (l := []) (out := []) rfl (opens := []) (opened := false) ⟨hi, by simp, by simp⟩ hs rfl .start
  cases h3
  subst h4
  exact ⟨h2, st', ctx, hd, _, rfl, h1, by simpa using h5⟩
end

/-- **C20**  For every reader below whose events are well nested: of all the events it has delivered, the user has got exactly those that are not events of the system. -/
theorem C20_every_user_event {R : Type} (raw : R → Cmd → Except PyErr IonEvent × R) (strict : Bool) (Inv : List IonType → Bool → Bool → R → Prop) (N : Nests raw strict Inv) (catalog : Catalog) (st : R)
    (hi : Inv [] false false st) (S : Status R) (cmds : List Cmd) (es : List Event) (h : Calls raw (.live st { catalog := catalog } none) cmds es S) (hs : strict = true ∨ SkipsAfterStart false cmds (es.map (·.eventType))) :
    ∃ st' ctx hd below, S = .live st' ctx hd ∧ Calls (logged raw) (.live (st, []) { catalog := catalog } none) cmds es (.live (st', below) ctx hd) ∧ Surfaced catalog below es ctx hd.isSome :=
  (calls_surface N ⟨_, hi⟩ h hs).2

/-- **C55** (binary)  Whatever bytes the binary reader is fed and whatever is requested, in any order, the events that the managed reader on top of it delivers are well nested: the
version markers and symbol tables that it takes out leave no gap. -/
theorem C55_binary_events_well_nested (catalog : Catalog) (cmds : List Cmd) (es : List Event) (S : Status RawReader.Status) (h : Calls RawReader.send (init catalog) cmds es S) :
    (nestUserAll true [] es).isSome = true :=
  (calls_surface binary_nests ⟨false, RawReader.statusOk_init, by simp⟩ h (.inl rfl)).1

/-- **C55** (text)  Whatever characters the text reader is fed, in whatever pieces, and whatever is requested, the events that the managed reader on top of it delivers are well nested, provided
`SKIP` is not requested after the end of a sibling (`C51_skip_after_sibling`). -/
theorem C55_text_events_well_nested_partial (F : FloatText) (units : Bytes → List Nat) (catalog : Catalog) (cmds : List Cmd) (es : List Event) (S : Status TextReader.Status)
    (h : Calls (TextReader.send F units) (.live .fresh { catalog := catalog } none) cmds es S) (hs : SkipsAfterStart false cmds (es.map (·.eventType))) : (nestUserAll false [] es).isSome = true :=
  (calls_surface text_nests ⟨false, .fresh, by simp⟩ h (.inr hs)).1

/-- **C20** (binary)  Whatever bytes the binary reader is fed and whatever is requested: of all the events it has delivered to the managed reader, the user has got exactly those that are not events
of the system, in order, resolved in the symbol context in force. -/
theorem C20_every_user_event_binary (catalog : Catalog) (cmds : List Cmd) (es : List Event) (S : Status RawReader.Status) (h : Calls RawReader.send (init catalog) cmds es S) :
    ∃ st ctx hd below, S = .live st ctx hd ∧ Calls (logged RawReader.send) (.live (RawReader.init, []) { catalog := catalog } none) cmds es (.live (st, below) ctx hd) ∧
      Surfaced catalog below es ctx hd.isSome :=
  (calls_surface binary_nests ⟨false, RawReader.statusOk_init, by simp⟩ h (.inl rfl)).2

/-- **C20** (text)  The same for the text reader. -/
theorem C20_every_user_event_text (F : FloatText) (units : Bytes → List Nat) (catalog : Catalog) (cmds : List Cmd) (es : List Event) (S : Status TextReader.Status)
    (h : Calls (TextReader.send F units) (.live .fresh { catalog := catalog } none) cmds es S) (hs : SkipsAfterStart false cmds (es.map (·.eventType))) :
    ∃ st ctx hd below, S = .live st ctx hd ∧ Calls (logged (TextReader.send F units)) (.live (.fresh, []) { catalog := catalog } none) cmds es (.live (st, below) ctx hd) ∧
      Surfaced catalog below es ctx hd.isSome :=
  (calls_surface text_nests ⟨false, .fresh, by simp⟩ h (.inr hs)).2

/-! ## Examples -/

section
variable {R : Type} {raw : R → Cmd → Except PyErr IonEvent × R}

/-- `send`, computed. -/
def sendN (rawN : R → Cmd → Option (Except PyErr IonEvent × R)) : Nat → Status R → Cmd → Option (Except PyErr Event × Status R)
  | 0, _, _ => none
  | _ + 1, .dead, _ => some (.error .stopIteration, .dead)
  | n + 1, .live r ctx h, cmd => (rawN r cmd).bind fun a => match a with
    | (.error err, _) => some (.error err, .dead)
    | (.ok e, r') => match react ctx h e with
      | .error err => some (.error err, .dead)
      | .ok (.give ctx' h') => some (.ok (thunkEvent ctx' e), .live r' ctx' h')
      | .ok (.ask cmd' ctx' h') => sendN rawN n (.live r' ctx' h') cmd'

theorem sendN_sound {rawN : R → Cmd → Option (Except PyErr IonEvent × R)} (hr : ∀ {st : R} {cmd : Cmd} {r : Except PyErr IonEvent × R}, rawN st cmd = some r → raw st cmd = r) :
    ∀ {n : Nat} {S : Status R} {cmd : Cmd} {r : Except PyErr Event × Status R}, sendN rawN n S cmd = some r → send raw S cmd = some r := by
  intro n
  induction n with
  | zero => intro S cmd r h; cases h
  | succ n ih =>
    intro S cmd r h
    rw [send.eq_def]
    cases S with
    | dead => exact h
    | live st ctx hd =>
      simp only [sendN, Option.bind_eq_some_iff] at h
      obtain ⟨⟨a, st1⟩, h1, h2⟩ := h
      dsimp only
      rw [hr h1]
      cases a with
      | error err => exact h2
      | ok x =>
        dsimp only at h2 ⊢
        split at h2
        · rename_i heq; rw [heq]; exact h2
        · rename_i heq; rw [heq]; exact h2
        · rename_i heq; rw [heq]; exact ih h2

/-- `Calls`, computed: the events. -/
def callsN (rawN : R → Cmd → Option (Except PyErr IonEvent × R)) (n : Nat) : Status R → List Cmd → Option (List Event)
  | _, [] => some []
  | S, cmd :: cmds => match sendN rawN n S cmd with
    | some (.ok e, S1) => (callsN rawN n S1 cmds).map (e :: ·)
    | _ => none

theorem callsN_sound {rawN : R → Cmd → Option (Except PyErr IonEvent × R)} (hr : ∀ {st : R} {cmd : Cmd} {r : Except PyErr IonEvent × R}, rawN st cmd = some r → raw st cmd = r) {n : Nat} :
    ∀ {cmds : List Cmd} {S : Status R} {es : List Event}, callsN rawN n S cmds = some es → ∃ S', Calls raw S cmds es S' := by
  intro cmds
  induction cmds with
  | nil => intro S es h; cases h; exact ⟨_, .nil _⟩
  | cons cmd cmds ih =>
    intro S es h
    simp only [callsN] at h
    split at h
    · rename_i e S1 h1
      rw [Option.map_eq_some_iff] at h
      obtain ⟨es', h2, rfl⟩ := h
      obtain ⟨S', h3⟩ := ih h2
      exact ⟨S', .cons (sendN_sound hr h1) h3⟩
    · cases h
end

/-- What is seen of an event. -/
structure Seen where
  type : IonEventType
  ionType : Option IonType
  depth : Option Int
  field : Option Text
  deriving DecidableEq

/-- What is seen of an event. -/
def seen (e : Event) : Seen := ⟨e.eventType, e.ionType, e.depth, match e.fieldName with | .ok (some k) => k.text | _ => none⟩

theorem seen_calls {R : Type} {raw : R → Cmd → Except PyErr IonEvent × R} {rawN : R → Cmd → Option (Except PyErr IonEvent × R)}
    (hr : ∀ {st : R} {cmd : Cmd} {r : Except PyErr IonEvent × R}, rawN st cmd = some r → raw st cmd = r) (n : Nat) {S : Status R} {cmds : List Cmd} {l : List Seen}
    (h : (callsN rawN n S cmds).map (·.map seen) = some l) : ∃ es S', Calls raw S cmds es S' ∧ es.map seen = l := by
  rw [Option.map_eq_some_iff] at h
  obtain ⟨es, h1, h2⟩ := h
  obtain ⟨S', h3⟩ := callsN_sound hr h1
  exact ⟨es, S', h3, h2⟩

/-- A binary stream with a version marker, a local symbol table with the symbol `a`, a struct `{a:true}`, and 0, in three pieces: the user sees nothing of marker and table. -/
example : ∃ es S, Calls RawReader.send (init []) [.next, .data [0xE0, 0x01, 0x00, 0xEA, 0xE7, 0x81, 0x83, 0xD4, 0x87, 0xB2], .data [0x81, 0x61, 0xD2, 0x8A], .next, .data [0x11, 0x20], .next, .next, .next] es S ∧
    es.map seen = [⟨.streamEnd, none, none, none⟩, ⟨.incomplete, none, none, none⟩, ⟨.containerStart, some .struct, some 0, none⟩, ⟨.incomplete, none, none, none⟩, ⟨.scalar, some .bool, some 1, some [97]⟩,
      ⟨.containerEnd, some .struct, some 0, none⟩, ⟨.scalar, some .int, some 0, none⟩, ⟨.streamEnd, none, none, none⟩] :=
  seen_calls (rawN := fun st cmd => some (RawReader.send st cmd)) (by intro st cmd r h; exact Option.some.inj h) 20 (by decide +kernel)

/-- A text with a symbol table, a list that is skipped, and a stray bracket at the end, which raises. -/
def sampleText : List Char := "$ion_symbol_table::{x:[1,2],symbols:[\"a\"]} [{$10:1}] {$10:2} ]".toList

theorem sample_seen (F : FloatText) : ∃ es S, Calls (TextReader.send F TextReader.byteUnits) (.live .fresh { catalog := [] } none)
    [.next, .data (sampleText.map fun c => UInt8.ofNat c.toNat), .skip, .next, .next, .next] es S ∧
    es.map seen = [⟨.streamEnd, none, none, none⟩, ⟨.containerStart, some .list, some 0, none⟩, ⟨.containerEnd, some .list, some 0, none⟩, ⟨.containerStart, some .struct, some 0, none⟩,
      ⟨.scalar, some .int, some 1, some [97]⟩, ⟨.containerEnd, some .struct, some 0, none⟩] :=
  seen_calls (rawN := TextReader.sendN F TextReader.byteUnits 60 40) (by intro st cmd r h; exact TextReader.sendN_sound h) 40 rfl

/-- The skip in the example comes after the start of a container. -/
example (F : FloatText) : ∃ es S, Calls (TextReader.send F TextReader.byteUnits) (.live .fresh { catalog := [] } none)
    [.next, .data (sampleText.map fun c => UInt8.ofNat c.toNat), .skip, .next, .next, .next] es S ∧
    SkipsAfterStart false [.next, .data (sampleText.map fun c => UInt8.ofNat c.toNat), .skip, .next, .next, .next] (es.map (·.eventType)) := by
  obtain ⟨es, S, h1, h2⟩ := sample_seen F
  refine ⟨es, S, h1, ?_⟩
  have h3 := congrArg (List.map (·.type)) h2
  rw [List.map_map] at h3
  rw [show es.map (·.eventType) = es.map ((fun x => x.type) ∘ seen) from rfl, h3]
  simp [SkipsAfterStart, lastStarts]

end Ion.ManagedReader
