import Verif.TextSafeRun
import Verif.TextCalls
import Verif.Props.TextNesting
set_option linter.unusedSimpArgs false
/-!
# C52: the text reader always answers

Whatever characters the text reader is fed, in whatever pieces, and whatever is requested: it answers, and the exceptions that it raises are `IonException`, `TypeError`,
`ValueError`, `UnicodeDecodeError` and `AttributeError`: no assertion fails, no index is out of range, no element is missing.
-/
namespace Ion.Text
open Ion Ion.TextReader Ion.TextReader.Calm
open Ion.RawReader (Cmd)

/-- The exceptions that the text reader raises. -/
def MayRaise : PyErr → Prop
  | .ionException | .typeError | .valueError | .unicodeError | .attributeError => True
  | _ => False

theorem mayRaise {e : PyErr} (h : Raised e) : MayRaise e := by
  rcases h with rfl | rfl | rfl | rfl | rfl <;> trivial

theorem calls_safe {F : FloatText} {units : Bytes → List Nat} (cmds : List Cmd) : ∀ {st : Status}, StatusSafe st → st ≠ .dead → (∀ d, Cmd.data d ∈ cmds → EOF ∉ units d) →
    ∀ e, Except.error e ∈ calls F units st cmds → MayRaise e ∨ (e = .modelFuel ∧ (Skipping st = true ∨ Cmd.skip ∈ cmds)) := by
  induction cmds with
  | nil => intro st _ _ _ e he; cases he
  | cons cmd cmds ih =>
    intro st hs hd hu e he
    have h1 := send_safe (F := F) (units := units) (cmd := cmd) hs (fun d hc => hu d (by rw [hc]; simp))
    simp only [calls] at he
    cases hr : send F units st cmd with
    | mk r st' =>
      rw [hr] at he h1
      obtain ⟨h2, h3, h4⟩ := h1
      cases r with
      | error e' =>
        simp only [List.mem_singleton, Except.error.injEq] at he
        subst he
        rcases h3 e rfl with h | ⟨_, h⟩ | ⟨h5, h6⟩
        · exact .inl (mayRaise h)
        · exact absurd h hd
        · exact .inr ⟨h5, h6.imp id fun h => by rw [h]; simp⟩
      | ok ev =>
        simp only [List.mem_cons, reduceCtorEq, false_or] at he
        obtain ⟨h2, hd'⟩ := h2
        have hd' := hd' ev rfl
        rcases ih h2 hd' (fun d hc => hu d (by simp [hc])) e he with h | ⟨h5, h6⟩
        · exact .inl h
        · refine .inr ⟨h5, ?_⟩
          rcases h6 with h6 | h6
          · by_cases h7 : Skipping st = true
            · exact .inl h7
            · by_cases h8 : cmd = .skip
              · exact .inr (by rw [h8]; simp)
              · have := h4 (by simpa using h7) h8
                rw [h6] at this
                cases this
          · exact .inr (by simp [h6])

/-- **C52**  Whatever characters the text reader is fed, in whatever pieces, and whatever is requested in any order: every call that does not deliver an event raises one of five
exceptions.  (The units of the data are code points, or bytes; `EOF` stands for no character.)  Only a reader that has been told to skip may never answer. -/
theorem C52_text_reader_answers_partial (F : FloatText) (units : Bytes → List Nat) (cmds : List Cmd) (hu : ∀ d, Cmd.data d ∈ cmds → EOF ∉ units d) (e : PyErr)
    (he : Except.error e ∈ calls F units .fresh cmds) : MayRaise e ∨ (e = .modelFuel ∧ Cmd.skip ∈ cmds) := by
  rcases calls_safe cmds (st := .fresh) trivial (by rintro ⟨⟩) hu e he with h | ⟨h1, h2⟩
  · exact .inl h
  · exact .inr ⟨h1, h2.resolve_left (by simp [Skipping])⟩

/-- **C52**  The same for a caller that never skips: it always gets an answer. -/
theorem C52_text_reader_answers_without_skip (F : FloatText) (units : Bytes → List Nat) (cmds : List Cmd) (hu : ∀ d, Cmd.data d ∈ cmds → EOF ∉ units d) (hs : Cmd.skip ∉ cmds) (e : PyErr)
    (he : Except.error e ∈ calls F units .fresh cmds) : MayRaise e :=
  (C52_text_reader_answers_partial F units cmds hu e he).resolve_right fun h => hs h.2

/-- **C52**  For `bytes` as data there is no condition on them. -/
theorem C52_bytes_reader_answers_without_skip (F : FloatText) (cmds : List Cmd) (hs : Cmd.skip ∉ cmds) (e : PyErr) (he : Except.error e ∈ calls F byteUnits .fresh cmds) : MayRaise e := by
  refine C52_text_reader_answers_without_skip F byteUnits cmds (fun d _ h => ?_) hs e he
  obtain ⟨b, _, hb⟩ := List.mem_map.1 h
  have := b.toNat_lt
  rw [hb] at this
  simp [EOF] at this

/-! ## Each of them is raised, and a reader may never answer -/

/-- The last answer. -/
theorem calls_eval {F : FloatText} {units : Bytes → List Nat} {cmds : List Cmd} {e : PyErr} (m n : Nat) (h : (callsN F units m n .fresh cmds).bind (·.getLast?.map fun r => match r with | .error e => some e | .ok _ => none) = some (some e)) :
    (calls F units .fresh cmds).getLast? = some (.error e) := by
  cases hc : callsN F units m n .fresh cmds with
  | none => rw [hc] at h; cases h
  | some l =>
    rw [callsN_sound hc]
    rw [hc] at h
    simp only [Option.bind_some, Option.map_eq_some_iff] at h
    obtain ⟨r, h1, h2⟩ := h
    rw [h1]
    cases r with
    | ok v => cases h2
    | error e' => simpa using h2

/-- **C52, what is missing**  `TypeError` for `-`, followed by the end of the data. -/
theorem C52_type_error (F : FloatText) : (calls F byteUnits .fresh [.next, .data (bytesOf ['-']), .next]).getLast? = some (.error .typeError) := calls_eval 60 8 rfl

/-- **C52, what is missing**  `ValueError` for an escaped low surrogate. -/
theorem C52_value_error (F : FloatText) : (calls F byteUnits .fresh [.next, .data (bytesOf ['"', '\\', 'u', 'D', 'C', '0', '0', '"'])]).getLast? = some (.error .valueError) := calls_eval 60 8 rfl

/-- **C52, what is missing**  `UnicodeDecodeError` for an escape sequence out of range. -/
theorem C52_unicode_error (F : FloatText) : (calls F byteUnits .fresh [.next, .data (bytesOf ['"', '\\', 'U', '0', '0', '1', '1', '0', '0', '0', '0', '"'])]).getLast? = some (.error .unicodeError) := calls_eval 60 8 rfl

/-- **C52, what is missing**  `AttributeError` for an empty symbol as annotation, after a long string. -/
theorem C52_attribute_error (F : FloatText) : (calls F byteUnits .fresh [.next, .data (bytesOf ['\'', '\'', '\'', 'a', '\'', '\'', '\'', ' ', '\'', '\'', ':', ':', '5', ' ']), .next]).getLast? = some (.error .attributeError) := calls_eval 60 8 rfl

/-- **C52, what is missing**  A reader that skips a list never answers when the data ends in it: of `[1`, then the end of the data. -/
theorem C52_skip_hangs (F : FloatText) : (calls F byteUnits .fresh [.next, .data (bytesOf ['[', '1']), .skip, .next]).getLast? = some (.error .modelFuel) := calls_eval 60 8 rfl

end Ion.Text
