import Verif.EventValues
import Verif.TextCalls
import Verif.Props.TextNesting
import Verif.Props.Nesting
import Verif.Props.ManagedReading
set_option linter.unusedSimpArgs false
/-!
# C64: the value of every event has the Python class of its Ion type

For every input, well-formed or not, cut into any chunks, and every sequence of requests.  The specification is `ValueFits`
(Verif/EventValues.lean) with `FitsWell` and `Moment`.
-/
namespace Ion.EventValues
open Ion Ion.EventEquality
open Ion.RawReader (Cmd)

/-- C64, the binary reader: whatever is sent, every event that it answers fits. -/
theorem C64_binary (cmds : List Cmd) : ∀ e ∈ RawReader.sends RawReader.init cmds, ValueFits TruncatedInUtc e := by
  suffices h : ∀ (cmds : List Cmd) (st : RawReader.Status), ∀ e ∈ RawReader.sends st cmds, ValueFits TruncatedInUtc e from h cmds _
  intro cmds
  induction cmds with
  | nil => intro st e he; cases he
  | cons cmd cmds ih =>
    intro st e he
    simp only [RawReader.sends] at he
    split at he
    · rename_i e' st' hs
      rcases List.mem_cons.mp he with rfl | he
      · exact Binary.send_fits (by rw [hs])
      · exact ih _ e he
    · cases he

/-- C64, the text reader, over bytes or over unicode text. -/
theorem C64_text (F : FloatText) (units : Bytes → List Nat) (cmds : List Cmd) : ∀ e ∈ TextReader.sends F units .fresh cmds, ValueFits Truncated e := by
  suffices h : ∀ (cmds : List Cmd) (st : TextReader.Status), Text.StatusT st → ∀ e ∈ TextReader.sends F units st cmds, ValueFits Truncated e from h cmds _ trivial
  intro cmds
  induction cmds with
  | nil => intro st _ e he; cases he
  | cons cmd cmds ih =>
    intro st hst e he
    have hs := Text.send_t (F := F) (units := units) (cmd := cmd) hst
    simp only [TextReader.sends] at he
    split at he
    · rename_i e' st' heq
      rw [heq] at hs
      rcases List.mem_cons.mp he with rfl | he
      · exact hs.1 _ rfl
      · exact ih _ hs.2 e he
    · cases he

/-! ## The managed reader -/

/-- The value of an event of the managed reader fits. -/
def UserFits (R : Timestamp → Prop) (e : ManagedReader.Event) : Prop :=
  match e.value with
  | .error _ => True
  | .ok v => FitsWell R e.ionType v ∧ (v ≠ none → e.eventType = .scalar)

theorem thunk_fits {K : Timestamp → Prop} {ctx : ManagedReader.Context} {e : IonEvent} (h : ValueFits K e) : UserFits K (ManagedReader.thunkEvent ctx e) := by
  unfold UserFits ManagedReader.thunkEvent ManagedReader.valueThunk
  unfold ValueFits at h
  cases hv : e.value with
  | error err => trivial
  | ok v =>
    rw [hv] at h
    cases v with
    | none => exact h
    | some v =>
      dsimp only at h ⊢
      by_cases ht : e.ionType = some .symbol
      · rw [if_pos ht]
        cases hr : ctx.resolveValue v with
        | error err => trivial
        | ok k =>
          refine ⟨?_, fun _ => h.2 (by simp)⟩
          rw [ht]
          trivial
      · rw [if_neg ht]
        exact h

/-- The managed reader over a reader whose events fit. -/
theorem managed_fits {K : Timestamp → Prop} {R : Type} {raw : R → Cmd → Except PyErr IonEvent × R} {Inv : R → Prop}
    (hraw : ∀ r cmd, Inv r → (∀ e, (raw r cmd).1 = .ok e → ValueFits K e) ∧ Inv (raw r cmd).2)
    {st : ManagedReader.Status R} {cmd : Cmd} {a : Except PyErr ManagedReader.Event × ManagedReader.Status R}
    (hst : ∀ r ctx hd, st = .live r ctx hd → Inv r) (h : ManagedReader.send raw st cmd = some a) :
    (∀ e, a.1 = .ok e → UserFits K e) ∧ ∀ r ctx hd, a.2 = .live r ctx hd → Inv r := by
  refine ManagedReader.send.partial_correctness raw (fun st cmd a => (∀ r ctx hd, st = .live r ctx hd → Inv r) →
    (∀ e, a.1 = .ok e → UserFits K e) ∧ ∀ r ctx hd, a.2 = .live r ctx hd → Inv r) ?_ st cmd a h hst
  intro f ih st cmd a ha hst
  cases st with
  | dead => cases ha; exact ⟨by rintro e ⟨⟩, by rintro r ctx hd ⟨⟩⟩
  | live r ctx hd =>
    obtain ⟨h1, h2⟩ := hraw r cmd (hst _ _ _ rfl)
    simp only at ha
    cases hr : raw r cmd with
    | mk x r' =>
      rw [hr] at ha h1 h2
      cases x with
      | error err => cases ha; exact ⟨by rintro e ⟨⟩, by rintro r ctx hd ⟨⟩⟩
      | ok e0 =>
        simp only at ha
        cases hre : ManagedReader.react ctx hd e0 with
        | error err => rw [hre] at ha; cases ha; exact ⟨by rintro e ⟨⟩, by rintro r ctx hd ⟨⟩⟩
        | ok act =>
          rw [hre] at ha
          cases act with
          | give ctx1 hd1 =>
            cases ha
            exact ⟨by rintro e ⟨⟩; exact thunk_fits (h1 _ rfl), by rintro r ctx hd ⟨⟩; exact h2⟩
          | ask cmd1 ctx1 hd1 => exact ih _ _ _ ha (by rintro r ctx hd ⟨⟩; exact h2)

theorem managed_sends_fit {K : Timestamp → Prop} {R : Type} {raw : R → Cmd → Except PyErr IonEvent × R} {Inv : R → Prop}
    (hraw : ∀ r cmd, Inv r → (∀ e, (raw r cmd).1 = .ok e → ValueFits K e) ∧ Inv (raw r cmd).2) (cmds : List Cmd) :
    ∀ (st : ManagedReader.Status R), (∀ r ctx hd, st = .live r ctx hd → Inv r) → ∀ l, ManagedReader.sends raw st cmds = some l → ∀ e, .ok e ∈ l → UserFits K e := by
  induction cmds with
  | nil => intro st _ l h e he; cases h; cases he
  | cons cmd cmds ih =>
    intro st hst l h e he
    simp only [ManagedReader.sends] at h
    split at h
    · cases h
    · cases h; simp at he
    · rename_i e' st' hs
      obtain ⟨h1, h2⟩ := managed_fits hraw hst hs
      cases hl : ManagedReader.sends raw st' cmds with
      | none => rw [hl] at h; cases h
      | some l' =>
        rw [hl] at h
        cases h
        rcases List.mem_cons.mp he with he | he
        · cases he; exact h1 _ rfl
        · exact ih _ h2 _ hl e he

/-- C64, the managed reader: whatever the catalog, over binary or text data, every event that the user gets fits. -/
theorem C64_managed (catalog : Catalog) (F : FloatText) (units : Bytes → List Nat) (cmds : List Cmd) :
    (∀ l, ManagedReader.sends RawReader.send (.live RawReader.init { catalog := catalog } none) cmds = some l → ∀ e, .ok e ∈ l → UserFits TruncatedInUtc e) ∧
    (∀ l, ManagedReader.sends (TextReader.send F units) (.live .fresh { catalog := catalog } none) cmds = some l → ∀ e, .ok e ∈ l → UserFits Truncated e) := by
  constructor
  · intro l hl
    exact managed_sends_fit (Inv := fun _ => True) (fun r cmd _ => ⟨fun e he => Binary.send_fits he, trivial⟩) cmds _ (by rintro r ctx hd _; trivial) l hl
  · intro l hl
    exact managed_sends_fit (Inv := Text.StatusT) (fun r cmd hr => Text.send_t hr) cmds _ (by rintro r ctx hd ⟨⟩; trivial) l hl

/-- C64 with C62: among the events that the readers deliver, from whatever data, and whose value can be read, `==` answers, and tells exactly
whether the events say the same. -/
theorem C64_events_comparable (F F' : FloatText) (units units' : Bytes → List Nat) (cmds cmds' : List Cmd) (a b : IonEvent) (v w : Option PyVal)
    (ha : a ∈ RawReader.sends RawReader.init cmds ∨ a ∈ TextReader.sends F units .fresh cmds)
    (hb : b ∈ RawReader.sends RawReader.init cmds' ∨ b ∈ TextReader.sends F' units' .fresh cmds')
    (hv : a.value = .ok v) (hw : b.value = .ok w) : ∃ r, eventEq a b = .ok r ∧ (r = true ↔ SameEvent a b v w) := by
  have good : ∀ {R : Timestamp → Prop} {e : IonEvent} {v : Option PyVal}, ValueFits R e → e.value = .ok v → Good e v := by
    intro R e v he hv
    unfold ValueFits at he
    rw [hv] at he
    exact ⟨hv, he.1.fits⟩
  refine C62_equal_iff a b v w ?_ ?_
  · rcases ha with h | h
    · exact good (C64_binary cmds a h) hv
    · exact good (C64_text F units cmds a h) hv
  · rcases hb with h | h
    · exact good (C64_binary cmds' b h) hw
    · exact good (C64_text F' units' cmds' b h) hw

/-- The theorems apply: a binary timestamp is delivered, with a value. -/
example : (RawReader.sends RawReader.init [.next, .data [0xE0, 0x01, 0x00, 0xEA, 0x63, 0xC0, 0x0F, 0xE4], .next]).map (fun e => (e.ionType, e.value)) =
    [(none, .ok none), (none, .ok none), (some .timestamp, .ok (some (.timestamp (.ts ⟨⟨2020, 1, 1, 0, 0, 0, 0, none⟩, some .year, 0, ⟨false, 0, 0⟩⟩))))] := by
  decide +kernel

/-- ... and from the text `[1.5,a]` a decimal and a symbol. -/
example (F : FloatText) : (TextReader.sends F TextReader.byteUnits .fresh ([.next, .data (TextReader.bytesOf ['[','1','.','5',',','a',']'])] ++ List.replicate 4 .next)).map (fun e => (e.ionType, e.value)) =
    [(none, .ok none), (some .list, .ok none), (some .decimal, .ok (some (.decimal ⟨false, 15, -1⟩))), (some .symbol, .ok (some (.sym ⟨some [97], none, none⟩))),
      (some .list, .ok none), (none, .ok none)] := by
  cases h : TextReader.callsN F TextReader.byteUnits 40 8 .fresh ([.next, .data (TextReader.bytesOf ['[','1','.','5',',','a',']'])] ++ List.replicate 4 .next) with
  | none =>
    have : (TextReader.callsN F TextReader.byteUnits 40 8 .fresh ([.next, .data (TextReader.bytesOf ['[','1','.','5',',','a',']'])] ++ List.replicate 4 .next)).isSome = true := rfl
    rw [h] at this; cases this
  | some l =>
    rw [TextReader.sends_eval h]
    have : (TextReader.callsN F TextReader.byteUnits 40 8 .fresh ([.next, .data (TextReader.bytesOf ['[','1','.','5',',','a',']'])] ++ List.replicate 4 .next)).map
      (fun l => (l.filterMap Except.toOption).map (fun e => (e.ionType, e.value))) = some [(none, .ok none), (some .list, .ok none), (some .decimal, .ok (some (.decimal ⟨false, 15, -1⟩))),
        (some .symbol, .ok (some (.sym ⟨some [97], none, none⟩))), (some .list, .ok none), (none, .ok none)] := rfl
    rw [h] at this
    simpa using this

end Ion.EventValues
