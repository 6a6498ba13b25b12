import Verif.TextLoadErrors
import Verif.Props.LoadTotal
import Verif.Props.TextErrors
import Verif.Props.LoadWhole
set_option linter.unusedSimpArgs false
/-!
# C66: loading text comes to an end

Whatever characters a file holds, Ion or not, and however `read` divides them: `load` of text returns or raises one of the listed exceptions; unless the text reader itself goes on asking for
data for ever after the end of the data (as it does in a comment that is not closed), or does not answer a request to skip (as at the end of the data within a container).
-/
namespace Ion.Simple
open Ion Ion.TextReader Ion.Simple.TextEnds
open Ion.Text (chars)
open Ion.RawReader (Cmd)

/-- The data in a list of requests. -/
def dataOf : List Cmd → List Bytes
  | [] => []
  | .data d :: cmds => d :: dataOf cmds
  | _ :: cmds => dataOf cmds

/-- After some requests, with all the data `cs` among them, all answered by events, the text reader answers every further `NEXT` with "incomplete", however many there are. -/
def AsksForEver (F : FloatText) (units : Bytes → List Nat) (cs : List Bytes) : Prop :=
  ∃ (cmds : List Cmd) (es : List IonEvent), dataOf cmds = cs ∧
    ∀ n, calls F units .fresh (cmds ++ List.replicate n .next) = es.map .ok ++ List.replicate n (.ok ION_STREAM_INCOMPLETE_EVENT)

/-- After some requests, with a first part of the data `cs` among them, and a request to skip, the text reader does not answer. -/
def SkipHangs (F : FloatText) (units : Bytes → List Nat) (cs : List Bytes) : Prop :=
  ∃ (cmds : List Cmd), dataOf cmds <+: cs ∧ Cmd.skip ∈ cmds ∧ (calls F units .fresh cmds).getLast? = some (.error .modelFuel)

/-! ## The requests that `load` makes -/

theorem dataOf_append (a b : List Cmd) : dataOf (a ++ b) = dataOf a ++ dataOf b := by
  induction a with
  | nil => rfl
  | cons c a ih => cases c <;> simp [dataOf, ih]

theorem calls_append {F : FloatText} {units : Bytes → List Nat} (cmds more : List Cmd) : ∀ {st : TextReader.Status} {es : List IonEvent}, calls F units st cmds = es.map .ok →
    calls F units st (cmds ++ more) = es.map .ok ++ calls F units (after F units st cmds) more := by
  induction cmds with
  | nil =>
    intro st es h
    cases es with
    | nil => rfl
    | cons _ _ => cases h
  | cons c cmds ih =>
    intro st es h
    simp only [calls, after, List.cons_append] at h ⊢
    cases hr : TextReader.send F units st c with
    | mk a st' =>
      rw [hr] at h
      cases a with
      | error err => cases es <;> simp at h
      | ok e =>
        cases es with
        | nil => cases h
        | cons e' es =>
          simp only [List.map_cons, List.cons.injEq, Except.ok.injEq] at h
          obtain ⟨rfl, h⟩ := h
          dsimp only
          rw [ih h]
          rfl

theorem after_append {F : FloatText} {units : Bytes → List Nat} (a b : List Cmd) : ∀ {st : TextReader.Status}, after F units st (a ++ b) = after F units (after F units st a) b := by
  induction a with
  | nil => intro st; rfl
  | cons c a ih => intro st; exact ih

/-- The reader in the state `st` has been asked, with the data `cs` but for `rest`, and has answered. -/
def Asked (F : FloatText) (units : Bytes → List Nat) (cs : List Bytes) (rest : List Bytes) (st : TextReader.Status) : Prop :=
  ∃ (cmds : List Cmd) (es : List IonEvent), calls F units .fresh cmds = es.map .ok ∧ after F units .fresh cmds = st ∧ dataOf cmds ++ rest = cs

theorem asked_snoc {F : FloatText} {units : Bytes → List Nat} {cmds : List Cmd} {es : List IonEvent} {st st' : TextReader.Status} {cmd : Cmd} {e : IonEvent}
    (h1 : calls F units .fresh cmds = es.map .ok) (h2 : after F units .fresh cmds = st) (h : TextReader.send F units st cmd = (.ok e, st')) :
    calls F units .fresh (cmds ++ [cmd]) = (es ++ [e]).map .ok ∧ after F units .fresh (cmds ++ [cmd]) = st' := by
  rw [calls_append _ _ h1, after_append, h2]
  simp only [calls, after, h, List.map_append, List.map_cons, List.map_nil, and_self]

theorem asked_kept {F : FloatText} {units : Bytes → List Nat} {cs : List Bytes} : Kept F units (Asked F units cs) where
  ask := by
    rintro rest st cmd e st' ⟨cmds, es, h1, h2, h3⟩ hn h
    obtain ⟨h4, h5⟩ := asked_snoc h1 h2 h
    refine ⟨_, _, h4, h5, ?_⟩
    rw [dataOf_append]
    cases cmd with
    | data d => exact (hn d rfl).elim
    | _ => simpa [dataOf] using h3
  data := by
    rintro d ds st e st' ⟨cmds, es, h1, h2, h3⟩ h
    obtain ⟨h4, h5⟩ := asked_snoc h1 h2 h
    refine ⟨_, _, h4, h5, ?_⟩
    rw [dataOf_append]
    simpa [dataOf] using h3

theorem lost_calls {F : FloatText} {units : Bytes → List Nat} (n : Nat) : ∀ {st : TextReader.Status}, Lost F st → calls F units st (List.replicate n .next) = List.replicate n (.ok ION_STREAM_INCOMPLETE_EVENT) := by
  induction n with
  | zero => intro st _; rfl
  | succ n ih =>
    intro st h
    obtain ⟨st', h1, h2⟩ := lost_next (units := units) h
    simp only [List.replicate_succ, calls, h1, ih h2]

theorem hopeless_asks {F : FloatText} {units : Bytes → List Nat} {cs : List Bytes} (h : Hopeless F (Asked F units cs)) : AsksForEver F units cs := by
  obtain ⟨st, ⟨cmds, es, h1, h2, h3⟩, hl⟩ := h
  refine ⟨cmds, es, by simpa using h3, fun n => ?_⟩
  rw [calls_append _ _ h1, h2, lost_calls n hl]

theorem asked_hangs {F : FloatText} {units : Bytes → List Nat} {cs : List Bytes} (hu : ∀ d ∈ cs, EOF ∉ units d) : Errors.Text.Hangs F units (Asked F units cs) (SkipHangs F units cs) := by
  rintro rest st cmd st' ⟨cmds, es, h1, h2, h3⟩ hc h
  have hcalls : calls F units .fresh (cmds ++ [cmd]) = es.map .ok ++ [.error .modelFuel] := by
    rw [calls_append _ _ h1, h2]
    simp only [calls, h]
  have hpre : dataOf (cmds ++ [cmd]) <+: cs := by
    rw [dataOf_append]
    rcases hc with hc | ⟨d, ds, rfl, rfl⟩
    · cases cmd with
      | data d => exact (hc d rfl).elim
      | _ => exact ⟨rest, by simpa [dataOf] using h3⟩
    · exact ⟨ds, by simpa [dataOf] using h3⟩
  refine ⟨cmds ++ [cmd], hpre, ?_, by rw [hcalls]; simp⟩
  have := Text.C52_text_reader_answers_partial F units (cmds ++ [cmd]) (fun d hd => hu d ?_) .modelFuel (by rw [hcalls]; simp)
  · rcases this with h | h
    · exact h.elim
    · exact h.2
  · refine hpre.subset ?_
    clear hcalls hpre
    revert hd
    generalize cmds ++ [cmd] = l
    intro hd
    induction l with
    | nil => cases hd
    | cons c l ih =>
      cases hd with
      | head => exact List.mem_cons_self ..
      | tail _ hd => cases c <;> simp [dataOf, ih hd]

/-! ## The property -/

/-- The exceptions that `load` of text may raise. -/
def textLoadRaises : List PyErr :=
  [.ionException, .cannotSubstitute, .typeError, .valueError, .attributeError, .overflowError, .decimalError, .unicodeError, .stopIteration]

/-- **C66**  `load` of text, for every file, every division into pieces and every catalog filled by `register`: it returns the values or raises one of the listed exceptions, or it is the text reader
that does not come to an end.  (`float` raises only `ValueError`; `EOF` is not a character.)  What is missing: `C66_open_comment_hangs`, `C66_truncated_table_hangs`. -/
theorem C66_load_of_text_ends_partial (F : FloatText) (hF : ∀ l err, F.parse l = .error err → err = .valueError) (units : Bytes → List Nat) (history : List SymbolTable) (catalog : Catalog)
    (hc : Catalog.Spec.registerAll history = .ok catalog) (single : Bool) (cs : List Bytes) (hu : ∀ d ∈ cs, EOF ∉ units d) :
    (∃ vs, loadText F units catalog single cs = some (.ok vs)) ∨ (∃ err ∈ textLoadRaises, loadText F units catalog single cs = some (.error err)) ∨
    AsksForEver F units cs ∨ SkipHangs F units cs := by
  have h0 : Asked F units cs cs .fresh := ⟨[], [], rfl, rfl, rfl⟩
  rcases loadText_ends asked_kept catalog single cs h0 with h | ⟨r, hr⟩
  · exact .inr (.inr (.inl (hopeless_asks h)))
  · cases r with
    | ok vs => exact .inl ⟨vs, hr⟩
    | error err =>
      have hF' : TextReader.Values.FloatsOnly F := fun l err h => by rw [hF l err h]; trivial
      rcases Errors.Text.loadText_errors hF' asked_kept (asked_hangs hu) (Errors.Managed.registered_ok hc) hu h0 hr with h | rfl | ⟨rfl, h⟩
      · refine .inr (.inl ⟨err, ?_, hr⟩)
        cases err <;> first | exact h.elim | decide
      · exact .inr (.inl ⟨_, by decide, hr⟩)
      · exact .inr (.inr (.inr h))

theorem byte_units {d : Bytes} : EOF ∉ byteUnits d := by
  intro h
  obtain ⟨b, _, hb⟩ := List.mem_map.1 h
  have := b.toNat_lt
  rw [hb] at this
  simp [EOF] at this

/-- **C66**  The same for `load` of a file of `str`: every character is a code point. -/
theorem C66_load_of_str_ends_partial (F : FloatText) (hF : ∀ l err, F.parse l = .error err → err = .valueError) (history : List SymbolTable) (catalog : Catalog)
    (hc : Catalog.Spec.registerAll history = .ok catalog) (single : Bool) (ps : List Ion.Text) (hu : ∀ p ∈ ps, ∀ c ∈ p, c ≤ 0x10FFFF) :
    (∃ vs, load F catalog single (.str ps) = some (.ok vs)) ∨ (∃ err ∈ textLoadRaises, load F catalog single (.str ps) = some (.error err)) ∨
    AsksForEver F strUnits (ps.map strBytes) ∨ SkipHangs F strUnits (ps.map strBytes) := by
  refine C66_load_of_text_ends_partial F hF strUnits history catalog hc single _ ?_
  intro d hd h
  obtain ⟨p, hp, rfl⟩ := List.mem_map.1 hd
  rw [Text.units_str fun c hc => Nat.lt_of_le_of_lt (hu p hp c hc) (by decide)] at h
  exact absurd (hu p hp _ h) (by decide)

/-- **C66**  The same for `load` of a file of `bytes`, whatever they are: if they do not begin with the binary version marker, they are text. -/
theorem C66_load_of_bytes_ends_partial (F : FloatText) (hF : ∀ l err, F.parse l = .error err → err = .valueError) (history : List SymbolTable) (catalog : Catalog)
    (hc : Catalog.Spec.registerAll history = .ok catalog) (single : Bool) (cs : List Bytes) :
    (∃ vs, load F catalog single (.bytes cs) = some (.ok vs)) ∨ (∃ err ∈ textLoadRaises, load F catalog single (.bytes cs) = some (.error err)) ∨
    AsksForEver F byteUnits cs ∨ SkipHangs F byteUnits cs := by
  unfold load
  dsimp only
  cases formatOf false cs.flatten with
  | text => exact C66_load_of_text_ends_partial F hF byteUnits history catalog hc single cs fun d _ => byte_units
  | binary =>
    dsimp only
    obtain ⟨r, hr⟩ := C65_load_ends catalog single cs
    cases r with
    | ok vs => exact .inl ⟨vs, hr⟩
    | error err =>
      refine .inr (.inl ⟨err, ?_, hr⟩)
      have := C65_load_raises_partial history catalog hc single cs err hr
      unfold loadRaises at this
      unfold textLoadRaises
      simp only [List.mem_cons, List.not_mem_nil, or_false] at this ⊢
      rcases this with h | h | h | h | h | h | h | h <;> simp [h]

/-- The conditions can be met. -/
example : ∃ F : FloatText, (∀ l err, F.parse l = .error err → err = .valueError) ∧ (∃ t ∈ [chars ['[', '1', ']']], ∀ c ∈ t, c ≤ 0x10FFFF) ∧ Catalog.Spec.registerAll [] = .ok [] :=
  ⟨{ repr := fun _ => [], parse := fun _ => .error .valueError }, by simp, ⟨_, List.mem_singleton_self _, by decide⟩, rfl⟩

/-- A text of which the first alternative holds. -/
example (F : FloatText) : ∃ vs, load F [] false (.str [chars ['[', '1', ']']]) = some (.ok vs) ∧ vs.length = 1 := loadLen_sound (m := 60) (n := 12) rfl

/-- **C66**  Exceptions of the list that do occur, besides `IonException`. -/
theorem C66_exceptions_occur (F : FloatText) (single : Bool) :
    load F [] single (.str [chars [']']]) = some (.error .ionException) ∧
    load F [] single (.str [chars "$ion_symbol_table::{imports:[{name:\"a\"}]}".toList]) = some (.error .cannotSubstitute) ∧
    load F [] single (.str [chars ['-']]) = some (.error .typeError) ∧
    load F [] single (.str [chars "2000-13-01 ".toList]) = some (.error .valueError) ∧
    load F [] single (.str [chars "$ion_symbol_table::{imports:null.symbol}".toList]) = some (.error .attributeError) ∧
    load F [] single (.str [chars "\"\\U00110000\"".toList]) = some (.error .unicodeError) ∧
    load F [] single (.str [chars "[1".toList]) = some (.error .stopIteration) := by
  refine ⟨?_, ?_, ?_, ?_, ?_, ?_, ?_⟩ <;> exact loadErr_sound (m := 100) (n := 60) rfl

/-! ## What is missing -/

theorem lost_await {F : FloatText} {units : Bytes → List Nat} {r : Except PyErr ManagedReader.Event} {S : ManagedReader.Status TextReader.Status} {cs : List Bytes} {o : Except PyErr ManagedReader.Event × Source (ManagedReader.Status TextReader.Status)}
    (h : awaitEvent (tstep F units) r S cs = some o) : ∀ {e st ctx}, r = .ok e → e.eventType = .incomplete → S = .live st ctx none → cs = [] → Lost F st → False := by
  refine awaitEvent.partial_correctness (tstep F units) (fun r S cs _ => ∀ {e st ctx}, r = .ok e → e.eventType = .incomplete → S = .live st ctx none → cs = [] → Lost F st → False) ?_ r S cs o h
  rintro f ih _ _ _ o h e st ctx rfl he rfl rfl hl
  obtain ⟨st', h1, h2⟩ := lost_next (units := units) hl
  have h3 : tstep F units (.live st ctx none) .next = some (.ok (ManagedReader.thunkEvent ctx ION_STREAM_INCOMPLETE_EVENT), .live st' ctx none) := by
    rw [tstep, ManagedReader.send.eq_def]
    dsimp only
    rw [h1]
    rfl
  simp only [he, IonEventType.isStreamSignal, if_true, h3, bind, Option.bind_some] at h
  exact ih _ _ _ _ h rfl rfl rfl rfl h2

/-- The first answer to the data is that the reader is in a comment. -/
theorem lost_load {F : FloatText} {units : Bytes → List Nat} {d : Bytes} {st1 st2 : TextReader.Status} (h1 : TextReader.send F units .fresh .next = (.ok ION_STREAM_END_EVENT, st1))
    (h2 : TextReader.send F units st1 (.data d) = (.ok ION_STREAM_INCOMPLETE_EVENT, st2)) (hl : Lost F st2) (catalog : Catalog) (single : Bool) : loadText F units catalog single [d] = none := by
  cases h : loadText F units catalog single [d] with
  | none => rfl
  | some r =>
    exfalso
    unfold loadText loadFrom at h
    rw [loadLoop.eq_def] at h
    simp only [bind, Option.bind_eq_some_iff, nextEvent] at h
    obtain ⟨p, ⟨o, ⟨q, h3, h4⟩, -⟩, -⟩ := h
    have h5 : ManagedReader.send (TextReader.send F units) (.live .fresh { catalog := catalog } none) .next =
        some (.ok (ManagedReader.thunkEvent { catalog := catalog } ION_STREAM_END_EVENT), .live st1 { catalog := catalog } none) := by
      rw [ManagedReader.send.eq_def]
      dsimp only
      rw [h1]
      rfl
    have h6 : ManagedReader.send (TextReader.send F units) (.live st1 { catalog := catalog } none) (.data d) =
        some (.ok (ManagedReader.thunkEvent { catalog := catalog } ION_STREAM_INCOMPLETE_EVENT), .live st2 { catalog := catalog } none) := by
      rw [ManagedReader.send.eq_def]
      dsimp only
      rw [h2]
      rfl
    rw [h5] at h3
    cases h3
    rw [awaitEvent.eq_def] at h4
    dsimp only at h4
    rw [if_pos (show (ManagedReader.thunkEvent { catalog := catalog } ION_STREAM_END_EVENT).eventType.isStreamSignal = true from rfl), h6] at h4
    exact lost_await h4 rfl rfl rfl rfl hl

/-- **C66, what is missing**  `load` of `'''a'''/*`, a text with a comment that is not closed, never ends. -/
theorem C66_open_comment_hangs (F : FloatText) (catalog : Catalog) (single : Bool) : load F catalog single (.str [chars ['\'', '\'', '\'', 'a', '\'', '\'', '\'', '/', '*']]) = none := by
  have safe : ∀ {st : TextReader.Status} {cmd : Cmd} {e : IonEvent} {st' : TextReader.Status}, Calm.StatusSafe st → (∀ d, cmd = .data d → EOF ∉ strUnits d) → TextReader.send F strUnits st cmd = (.ok e, st') → Calm.StatusSafe st' := by
    intro st cmd e st' hs hd h
    have := (Calm.send_safe (F := F) (units := strUnits) hs hd).1.1
    rw [h] at this
    exact this
  have h1 : ∃ st1, TextReader.send F strUnits .fresh .next = (.ok ION_STREAM_END_EVENT, st1) ∧ ∃ st2, TextReader.send F strUnits st1 (.data (strBytes (chars ['\'', '\'', '\'', 'a', '\'', '\'', '\'', '/', '*']))) = (.ok ION_STREAM_INCOMPLETE_EVENT, st2) ∧
      ∃ s x ret prev q d sk, st2 = .blocked false true (fun c => onChar F s x (.commentBody ret true prev) (some { code := c })) q d sk ∧ x.quoted = false ∧ ({ s with child := some x } : St).flushable = true := by
    refine ⟨_, sendN_sound (m := 20) (n := 20) rfl, _, sendN_sound (m := 60) (n := 60) rfl, ?_⟩
    exact ⟨_, _, _, _, _, _, _, rfl, rfl, rfl⟩
  obtain ⟨st1, h1, st2, h2, s, x, ret, prev, q, d, sk, rfl, hx, hf⟩ := h1
  have h3 := safe (safe (st := .fresh) trivial (by rintro d ⟨⟩) h1) (by rintro d ⟨⟩; decide) h2
  obtain ⟨n, h4, -⟩ := h3
  have hl : Lost F (.blocked false true (fun c => onChar F s x (.commentBody ret true prev) (some { code := c })) q d sk) := ⟨s, x, ret, prev, q, d, sk, rfl, ⟨n, h4⟩, hx, hf⟩
  exact lost_load h1 h2 hl catalog single

/-- **C66, what is missing**  `load` of a symbol table that is cut off within a list that is skipped never ends. -/
theorem C66_truncated_table_hangs (F : FloatText) (single : Bool) : load F [] single (.str [chars "$ion_symbol_table::{a:[1".toList]) = some (.error .modelFuel) :=
  loadErr_sound (m := 60) (n := 40) rfl

end Ion.Simple
