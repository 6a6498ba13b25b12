import Verif.LoadErrors
import Verif.Props.Nesting
/-!
# C65: loading binary data always comes to an end

Whatever bytes a file holds, Ion or not, and however `read` divides them: `load` of binary data returns or raises, it never loops; and
the exceptions are from a list.
-/
namespace Ion.Simple
open Ion Ion.RawReader Ion.ManagedReader

/-- **C65**  Every request to a binary reader (with a managed reader on top), in any state, is answered: by an event or by an
exception. -/
theorem C65_every_request_is_answered (st : ManagedReader.Status RawReader.Status) (cmd : Cmd) : ∃ r, ManagedReader.send RawReader.send st cmd = some r :=
  let ⟨r, h, _⟩ := ManagedReader.send_pot _ st cmd (Nat.le_refl _)
  ⟨r, h⟩

/-- **C65**  `load` of binary data comes to an end, for every file, every catalog and every division into pieces. -/
theorem C65_load_ends (catalog : Catalog) (single : Bool) (cs : List Bytes) : ∃ r, loadBinary catalog single cs = some r :=
  loadFrom_ends single _

/-- Every file that begins with the binary version marker, through `load` itself. -/
theorem C65_load_of_marked_file_ends (F : FloatText) (catalog : Catalog) (single : Bool) (cs : List Bytes) (h : cs.flatten.take 4 = [0xE0, 0x01, 0x00, 0xEA]) :
    ∃ r, load F catalog single (.bytes cs) = some r := by
  have : formatOf false cs.flatten = .binary := by
    unfold formatOf
    rw [if_neg (by simp), if_pos (show _ = IVM from h)]
  simp only [load, this]
  exact C65_load_ends catalog single cs

/-- The exceptions that `load` of binary data may raise. -/
def loadRaises : List PyErr :=
  [.ionException, .cannotSubstitute, .typeError, .valueError, .attributeError, .overflowError, .decimalError, .unicodeError]

/-- **C65**  An exception of `load` of binary data is one of `loadRaises`: `IndexError`, `KeyError`, `AssertionError` and
`StopIteration` do not occur.  (The catalog is one that was filled by `register`.)  What is missing for the claim that `load` raises
`IonException` for wrong data: see `C65_each_occurs`. -/
theorem C65_load_raises_partial (history : List SymbolTable) (catalog : Catalog) (hc : Catalog.Spec.registerAll history = .ok catalog)
    (single : Bool) (cs : List Bytes) (err : PyErr) (h : loadBinary catalog single cs = some (.error err)) : err ∈ loadRaises := by
  have hk : Errors.Known err := by
    unfold loadBinary loadFrom at h
    simp only [bind, Option.bind_eq_some_iff] at h
    obtain ⟨r, h1, h2⟩ := h
    have := (Errors.Load.loop_ok (opens := []) h1
      ⟨⟨Errors.Binary.qok_empty, by simp [RawReader.init], Errors.Managed.registered_ok hc⟩, false, ⟨false, RawReader.statusOk_init, by simp⟩, by simp, by simp⟩ (.inl ⟨rfl, rfl⟩)).1
    cases r with
    | error e => cases h2; exact this _ rfl
    | ok p =>
      dsimp only at h2
      split at h2 <;> cases h2
      trivial
  cases err <;> first | exact hk.elim | decide

/-- **C65, what is missing**  Every exception of the list does occur (for given data, whatever `single_value` is). -/
theorem C65_each_occurs (single : Bool) :
    -- another version of Ion
    loadBinary [] single [[0xE0, 0x02, 0x00, 0xEA]] = some (.error .ionException) ∧
    -- `$ion_symbol_table::{imports: [{name: "a"}]}`
    loadBinary [] single [[0xE0, 0x01, 0x00, 0xEA, 0xE9, 0x81, 0x83, 0xD6, 0x86, 0xB4, 0xD3, 0x84, 0x81, 0x61]] = some (.error .cannotSubstitute) ∧
    -- a NOP pad with the field name `name`
    loadBinary [] single [[0xE0, 0x01, 0x00, 0xEA, 0xD2, 0x84, 0x00]] = some (.error .typeError) ∧
    -- `2000-13`
    loadBinary [] single [[0xE0, 0x01, 0x00, 0xEA, 0x64, 0xC0, 0x0F, 0xD0, 0x8D]] = some (.error .valueError) ∧
    -- `$ion_symbol_table::{imports: null.symbol}`
    loadBinary [] single [[0xE0, 0x01, 0x00, 0xEA, 0xE5, 0x81, 0x83, 0xD2, 0x86, 0x7F]] = some (.error .attributeError) ∧
    -- one hour before the beginning of the year 1
    loadBinary [] single [[0xE0, 0x01, 0x00, 0xEA, 0x66, 0xFC, 0x81, 0x81, 0x81, 0x80, 0x80]] = some (.error .overflowError) ∧
    -- an exponent beyond what `Decimal.scaleb` takes
    loadBinary [] single [[0xE0, 0x01, 0x00, 0xEA, 0x55, 0x3F, 0x7F, 0x7F, 0xFF, 0x01]] = some (.error .decimalError) ∧
    -- a string that is not UTF-8
    loadBinary [] single [[0xE0, 0x01, 0x00, 0xEA, 0x81, 0xFF]] = some (.error .unicodeError) := by
  refine ⟨?_, ?_, ?_, ?_, ?_, ?_, ?_, ?_⟩
  · exact binaryErrN_sound (n := 20) rfl single
  · exact binaryErrN_sound (n := 20) (by with_unfolding_all rfl) single
  · exact binaryErrN_sound (n := 20) rfl single
  · exact binaryErrN_sound (n := 20) rfl single
  · exact binaryErrN_sound (n := 20) rfl single
  · exact binaryErrN_sound (n := 20) rfl single
  · exact binaryErrN_sound (n := 20) (by with_unfolding_all rfl) single
  · exact binaryErrN_sound (n := 20) (by with_unfolding_all rfl) single

/-- Non-trivial data that are loaded to the end, and the bound on the requests: nested containers of length 0, annotations, padding, in
pieces. -/
example : ∃ r, loadBinary [] false [[0xE0, 0x01], [0x00, 0xEA, 0xB3, 0xB0], [0xD0, 0x0F, 0x00, 0x21, 0x05]] = some r := C65_load_ends _ _ _

/-- The hypothesis on the catalog: no table, and a table that is registered. -/
example : Catalog.Spec.registerAll [] = .ok [] := rfl
example : ∃ t c, sharedSymbolTable [97] 1 [some [98]] = .ok t ∧ Catalog.Spec.registerAll [t] = .ok c := ⟨_, _, rfl, rfl⟩

/-- Data that end within a container: `IndexError` or `StopIteration` do not occur, but `TypeError` does (`[` with 3 bytes, of which one is
there). -/
example (single : Bool) : loadBinary [] single [[0xE0, 0x01, 0x00, 0xEA, 0xB3, 0x20]] = some (.error .typeError) := binaryErrN_sound (n := 20) rfl single

end Ion.Simple

namespace Ion.RawReader

/-- The answers to a sequence of requests; the first exception ends it. -/
def answers (st : Status) : List Cmd → List (Except PyErr IonEvent)
  | [] => []
  | cmd :: cmds => match send st cmd with
    | (.ok e, st') => .ok e :: answers st' cmds
    | (.error err, _) => [.error err]

/-- **C65**  The same for the binary reader below: to a caller who sends no `SKIP` it raises only exceptions of the list, whatever the bytes
and whatever the order of the other requests. -/
theorem C65_reader_raises (cmds : List Cmd) (hs : Cmd.skip ∉ cmds) (err : PyErr) (h : .error err ∈ answers init cmds) : err ∈ Simple.loadRaises := by
  have key : ∀ (cmds : List Cmd) (st : Status), Errors.Binary.StOk st → st ≠ .dead → Cmd.skip ∉ cmds → .error err ∈ answers st cmds → Errors.Known err := by
    intro cmds
    induction cmds with
    | nil => intro st _ _ _ h; cases h
    | cons cmd cmds ih =>
      intro st h1 h2 h3 h
      have ha := Errors.Binary.send_ok (cmd := cmd) h1 h2 fun hc => (h3 (by rw [hc]; simp)).elim
      unfold answers at h
      cases hr : send st cmd with
      | mk a st' =>
        rw [hr] at ha h
        cases a with
        | error e =>
          simp only [List.mem_singleton, Except.error.injEq] at h
          subst h
          exact ha
        | ok e =>
          simp only [List.mem_cons, reduceCtorEq, false_or] at h
          exact ih st' ha.1 ha.2.1 (fun hc => h3 (by simp [hc])) h
  have hk := key cmds init Errors.Binary.qok_empty (by simp [init]) hs h
  cases err <;> first | exact hk.elim | decide

/-- Requests that end with such an exception. -/
example : answers init [.next, .data [0xE0, 0x01, 0x00, 0xEA, 0x44, 1], .next, .next] = [.ok ION_STREAM_END_EVENT, .ok ION_VERSION_MARKER_EVENT, .ok ION_STREAM_INCOMPLETE_EVENT, .error .typeError] := rfl

/-- **C65, what is missing**  For `SKIP` the list is not complete: if a container reaches beyond the end of the container around it, a `SKIP`
after the inner one moves the position of the buffer back and makes the buffer count bytes that it does not have; the next request then raises
`IndexError`.  (A list of length 1 that holds a list of length 3; `load` never skips at such a place.) -/
theorem C65_skip_indexError : (answers init [.next, .data [0xE0, 0x01, 0x00, 0xEA, 0xB1, 0xB3, 0x20, 0x20, 0x20], .next, .next, .next, .next, .next, .next, .skip, .next]).getLast? = some (.error .indexError) := by
  rfl

end Ion.RawReader
