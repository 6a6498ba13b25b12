import Verif.LoadWhole
import Verif.LoadEval
import Verif.TextSkipLoad
import Verif.Props.TextReject
import Verif.Props.TextChunks
set_option linter.unusedSimpArgs false
/-!
# C54: `load` returns whole streams only

`Spec.Whole` says that events are those of a number of complete values.
-/
namespace Ion.Simple
open Ion Ion.Spec Ion.TextReader Ion.Text
open Ion.ManagedReader (Event Context Handler thunkEvent react startsTable onUser)

/-- The reader that `load` opens on a file, asked for one event after another, gives these events and then `STREAM_END`. -/
def StreamOf (F : FloatText) (catalog : Catalog) (file : File) (es : List Event) : Prop :=
  let stream {R : Type} (step : R → RawReader.Cmd → Option (Except PyErr Event × R)) (src : Source R) : Prop :=
    ∃ src1 e src2, Delivers step src es src1 ∧ nextEvent step src1 = some (.ok e, src2) ∧ e.eventType = .streamEnd
  match file with
  | .str ps => stream (ManagedReader.send (TextReader.send F strUnits)) (.active (.live .fresh { catalog := catalog } none) (ps.map strBytes))
  | .bytes cs => match formatOf false cs.flatten with
    | .text => stream (ManagedReader.send (TextReader.send F byteUnits)) (.active (.live .fresh { catalog := catalog } none) cs)
    | .binary => stream (ManagedReader.send RawReader.send) (.active (ManagedReader.init catalog) cs)

/-- **C54**  Whatever the file contains, Ion or not: if `load` returns, then the reader came to the end of the stream without exception, all containers were closed, and as many values are
returned as there were at the top level; nothing else was delivered. -/
theorem C54_load_returns_whole_stream (F : FloatText) (catalog : Catalog) (single : Bool) (file : File) (vs : List PyObj) (h : load F catalog single file = some (.ok vs)) :
    ∃ es, StreamOf F catalog file es ∧ Whole (es.map (·.eventType)) vs.length := by
  unfold load at h
  unfold StreamOf
  cases file with
  | str ps =>
    obtain ⟨es, src1, e, src2, h1, h2, h3, h4⟩ := from_values ManagedReader.text_nests h ⟨⟨false, .fresh, by simp⟩, by simp, by simp⟩
    exact ⟨es, ⟨src1, e, src2, h1, h2, h3⟩, h4⟩
  | bytes cs =>
    dsimp only at h ⊢
    cases hf : formatOf false cs.flatten with
    | text =>
      rw [hf] at h
      obtain ⟨es, src1, e, src2, h1, h2, h3, h4⟩ := from_values ManagedReader.text_nests h ⟨⟨false, .fresh, by simp⟩, by simp, by simp⟩
      exact ⟨es, ⟨src1, e, src2, h1, h2, h3⟩, h4⟩
    | binary =>
      rw [hf] at h
      obtain ⟨es, src1, e, src2, h1, h2, h3, h4⟩ := from_values ManagedReader.binary_nests h ⟨⟨false, RawReader.statusOk_init, by simp⟩, by simp, by simp⟩
      exact ⟨es, ⟨src1, e, src2, h1, h2, h3⟩, h4⟩

/-- A file that is loaded, with a symbol table: two values. -/
example (F : FloatText) : ∃ vs, load F [] false (.str [chars "$ion_symbol_table::{symbols:[\"a\"]} [1,{$10".toList, chars ":2}] $10 ".toList]) = some (.ok vs) ∧ vs.length = 2 :=
  loadLen_sound (m := 80) (n := 60) rfl

/-! ## Streams that end with an exception -/

/-- The managed reader never skips a container of these events of the reader below it. -/
def NeverSkips (ctx : Context) (h : Option Handler) : List IonEvent → Prop
  | [] => True
  | e :: es => match react ctx h e with
    | .error _ => True
    | .ok (.give ctx' h') => NeverSkips ctx' h' es
    | .ok (.ask .next ctx' h') => NeverSkips ctx' h' es
    | _ => False

/-- No local symbol table begins in these events. -/
def NoTable (es : List IonEvent) : Prop :=
  ∀ e ∈ es, e.eventType = .containerStart → e.ionType = some .struct → e.depth = some 0 → e.annotations = [] ∨ ∃ k t rest, e.annotations = .tok k :: rest ∧ k.text = some t ∧ t ≠ TEXT_ION_SYMBOL_TABLE

theorem never_skips {es : List IonEvent} (h : NoTable es) : ∀ (ctx : Context), NeverSkips ctx none es := by
  induction es with
  | nil => intro ctx; trivial
  | cons e es ih =>
    intro ctx
    have ih := ih fun x hx => h x (by simp [hx])
    have hst : startsTable ctx e = .ok true → e.depth = some 0 → False := by
      intro hs hd
      unfold startsTable at hs
      split at hs
      · rename_i hc
        rcases h e (by simp) hc.1 hc.2 hd with ha | ⟨k, t, rest, ha, hk, ht⟩
        · rw [ha] at hs; cases hs
        · rw [ha] at hs
          simp only [Context.hasTableAnnotation] at hs
          split at hs
          · cases hs
          · rename_i k' hk'
            have : k'.text = k.text := by
              revert hk'
              simp only [Context.resolve, hk]
              intro hh
              simp at hh
              rw [← hh, hk]
            simp only [Except.ok.injEq, decide_eq_true_eq] at hs
            rw [this, hk] at hs
            simp only [Option.some.injEq] at hs
            exact ht hs
      · cases hs
    have key : ∀ act, react ctx none e = .ok act → match act with | .give _ h' => h' = none | .ask cmd _ h' => cmd = .next ∧ h' = none := by
      intro act ha
      simp only [react, onUser] at ha
      split at ha
      · rename_i hd
        split at ha
        · split at ha
          · cases ha
          · cases ha; exact ⟨rfl, rfl⟩
        · split at ha
          · cases ha
          · simp only [Option.isSome_none, Bool.false_eq_true, if_false] at ha
            cases ha; exact ⟨rfl, rfl⟩
          · split at ha
            · cases ha
            · rename_i hs
              exact (hst hs hd).elim
            · cases ha; rfl
      · cases ha; rfl
    unfold NeverSkips
    cases hr : react ctx none e with
    | error err => trivial
    | ok act =>
      have := key act hr
      cases act with
      | give ctx' h' => dsimp only at this ⊢; subst this; exact ih ctx'
      | ask cmd ctx' h' => dsimp only at this ⊢; obtain ⟨rfl, rfl⟩ := this; exact ih ctx'

section
variable {R : Type} {raw : R → RawReader.Cmd → Except PyErr IonEvent × R}

theorem yields_real {st st' : R} {cmd : RawReader.Cmd} {cs cs' : List Bytes} {e : IonEvent} (hy : Yields raw IonEvent.eventType st cmd cs e st' cs') : e.eventType.isStreamSignal = false := by
  induction hy with
  | now _ h2 => exact h2
  | feed _ _ _ _ ih => exact ih
  | flush _ _ _ _ ih => exact ih

/-- The managed reader gives events that are not stream signals, and then raises or ends. -/
theorem delivers_until {st : R} {cs : List Bytes} {es : List IonEvent} {o : Option PyErr} (hr : Reading raw IonEvent.eventType st cs es o) :
    ∀ {ctx : Context} {h : Option Handler}, NeverSkips ctx h es →
    ∃ out src2, Delivers (ManagedReader.send raw) (.active (.live st ctx h) cs) out src2 ∧ (∀ e ∈ out, e.eventType ≠ .streamEnd) ∧
      ((∃ err, nextEvent (ManagedReader.send raw) src2 = some (.error err, .dead)) ∨ (o = none ∧ nextEvent (ManagedReader.send raw) src2 = some (.ok streamEnd, .ended))) := by
  induction hr with
  | ended hy =>
    intro ctx h _
    exact ⟨[], _, .nil _, by simp, .inr ⟨rfl, request_ends hy⟩⟩
  | raised hy =>
    intro ctx h _
    exact ⟨[], _, .nil _, by simp, .inl ⟨_, request_raises hy⟩⟩
  | @cons st cs e st1 cs1 es o hy _ ih =>
    intro ctx h hs
    obtain ⟨hg, ha, he⟩ := request_yields hy (ctx := ctx) (h := h)
    have hne : e.eventType ≠ .streamEnd := by
      have : e.eventType.isStreamSignal = false := by
        exact yields_real hy
      intro hc; rw [hc] at this; cases this
    simp only [NeverSkips] at hs
    generalize react ctx h e = r at hs hg ha he
    cases r with
    | error err => exact ⟨[], _, .nil _, by simp, .inl ⟨err, he err rfl⟩⟩
    | ok act =>
      cases act with
      | ask cmd c1 h1 =>
        cases cmd with
        | skip => exact hs.elim
        | data d => exact hs.elim
        | next =>
          obtain ⟨out, src2, k1, k2, k3⟩ := ih hs
          have heq := ha c1 h1 rfl
          cases k1 with
          | nil =>
            refine ⟨[], _, .nil _, by simp, ?_⟩
            rcases k3 with ⟨err, k3⟩ | ⟨ho, k3⟩
            · exact .inl ⟨err, heq.trans k3⟩
            · exact .inr ⟨ho, heq.trans k3⟩
          | cons _ src1 _ e1 es1 k4 k5 => exact ⟨_, src2, .cons _ _ _ _ _ (heq.trans k4) k5, k2, k3⟩
      | give c1 h1 =>
        obtain ⟨out, src2, k1, k2, k3⟩ := ih hs
        refine ⟨_, src2, .cons _ _ _ _ _ (hg c1 h1 rfl) k1, ?_, k3⟩
        intro x hx
        rcases List.mem_cons.1 hx with rfl | hx
        · exact hne
        · exact k2 x hx

theorem load_of_reading_error {cs : List Bytes} {es : List IonEvent} {err : PyErr} {st : R} {single : Bool} {catalog : Catalog} (hr : Reading raw IonEvent.eventType st cs es (some err))
    (hs : NeverSkips { catalog := catalog } none es) : ∃ err', loadFrom (ManagedReader.send raw) single (.active (.live st { catalog := catalog } none) cs) = some (.error err') := by
  obtain ⟨out, src2, h1, h2, h3⟩ := delivers_until hr hs
  rcases h3 with ⟨e, h3⟩ | ⟨h3, _⟩
  · exact from_raises h1 h3 h2
  · cases h3
end

/-- **C54**  (with C50)  A text with a mistake, of any of the kinds of `IsWrong`, at any place of any beginning of a text, is not loaded: `load` raises, for every division into pieces.
(`NoTable`: up to the mistake there is no local symbol table.  Or, with symbol tables, `Fine`, as for C53: no slash stands directly before a carriage return or a backslash, except at the end or the
beginning of a comment.) -/
theorem C54_wrong_text_is_not_loaded (F : FloatText) (pos : TextSpec.Position) (p : TextSpec.Place) (d : Nat) (t r : List Nat) (es : List IonEvent) (ht : TextSpec.IsAt F pos p d t es r)
    (hw : TextSpec.IsWrong pos p r) (hr : TextSpec.IsToken r) (hn : NoTable es ∨ Whole.Fine (t ++ r)) (catalog : Catalog) (single : Bool) (ps : List (List Nat)) (hp : Pieces ps (t ++ r)) :
    ((∀ c ∈ t ++ r, c ≤ 0x10FFFF) → ∃ err, load F catalog single (.str ps) = some (.error err)) ∧
    ((∀ c ∈ t ++ r, c < 128) → ∃ err, load F catalog single (.bytes (ps.map toBytes)) = some (.error err)) := by
  have gen : ∀ {units : Bytes → List Nat} {f : List Nat → Bytes}, (∀ c ∈ t ++ r, c ≤ 0x10FFFF) → (∀ p ∈ ps, units (f p) = p) → ∃ err, loadText F units catalog single (ps.map f) = some (.error err) := by
    intro units f hc hu
    have ha := wrong_answers ht hw hr fun c h => hc c (by simp [h])
    have hx : (ps.map f).flatMap units = t ++ r := by rw [flatMap_units hu, hp.1]
    rw [← hx] at ha
    have hne : ∀ d ∈ ps.map f, units d ≠ [] := by
      intro d hd
      obtain ⟨q, hq, rfl⟩ := List.mem_map.1 hd
      rw [hu q hq]
      exact hp.2 q hq
    rcases hn with hn | hn
    · exact load_of_reading_error (reading_of_answers hne ha) (never_skips hn _)
    · refine load_of_reading_raises (t := t ++ r) (by decide) ⟨⟨[], Queue.rel_empty, by rw [hx]; rfl⟩, hne⟩ hn (Calm.eofLast_none fun h => ?_) (reading_of_answers hne ha)
      have := hc _ h
      simp only [EOF] at this
      omega
  refine ⟨fun hc => gen hc fun q hq => units_str fun c hc' => ?_, fun hc => ?_⟩
  · have := piece_bound hp hc q hq c hc'; omega
  · have hfmt : formatOf false (ps.map toBytes).flatten = .text := by
      have : (ps.map toBytes).flatten = toBytes (t ++ r) := by
        rw [← hp.1]
        generalize ps = ps
        induction ps with
        | nil => rfl
        | cons p ps ih => simp [ih, toBytes]
      rw [this]
      simp only [formatOf, Bool.false_eq_true, if_false]
      rw [if_neg]
      intro h
      have h0 : t ++ r ≠ [] := by
        intro h0; rw [h0] at h; cases h
      cases htr : t ++ r with
      | nil => exact h0 htr
      | cons c l =>
        rw [htr] at h
        have hc0 := hc c (by rw [htr]; simp)
        simp only [toBytes, List.map_cons, List.take_succ_cons, IVM, List.cons.injEq] at h
        have := congrArg UInt8.toNat h.1
        simp only [UInt8.toNat_ofNat'] at this
        have e1 : c % 2 ^ 8 = c := Nat.mod_eq_of_lt (by omega)
        rw [e1] at this
        have e2 : (224 : UInt8).toNat = 224 := rfl
        rw [e2] at this
        omega
    obtain ⟨err, h⟩ := gen (units := byteUnits) (f := toBytes) (fun c h => by have := hc c h; omega) fun q hq => units_bytes fun c hc' => by
      have := piece_bound hp hc q hq c hc'; omega
    exact ⟨err, by simp only [load, hfmt]; exact h⟩

/-- `$ion_symbol_table::{a:[`, before anything. -/
theorem open_table (F : FloatText) (r : List Nat) : TextSpec.IsOpen F (some .list) 2 (asc "$ion_symbol_table::{a:[".toList)
    [TextSpec.startOf 0 none [.text TEXT_ION_SYMBOL_TABLE] .struct, TextSpec.startOf 1 (some (.text [97])) [] .list] r := by
  have hident : ∀ {t : List Nat}, TextSpec.IsIdent t → t ∉ TextSpec.reserved → (∀ ds, t ≠ 36 :: ds ∨ ¬ TextSpec.Digits ds) → TextSpec.IsSym t (.text t) := fun h1 h2 h3 =>
    .ident _ h1 h2 (by rintro ⟨ds, h, _, h'⟩; rcases h3 ds with h3 | h3; exact h3 h; exact h3 h')
  have ha : TextSpec.IsSym [97] (.text [97]) := hident ⟨by simp [TextSpec.IdentStart], by simp⟩ (by simp [TextSpec.reserved, asc]) (by simp)
  have hs : TextSpec.IsSym TEXT_ION_SYMBOL_TABLE (.text TEXT_ION_SYMBOL_TABLE) := by
    refine hident ?_ (by decide) fun ds => ?_
    · exact ⟨by simp [TextSpec.IdentStart], by simp [TextSpec.IdentStart]⟩
    · by_cases h : TEXT_ION_SYMBOL_TABLE = 36 :: ds
      · right
        cases h
        intro hd
        exact absurd (hd 105 (by simp)).2 (by decide)
      · exact .inl h
  exact .inside (some .struct) 1 _ _ [97, 58] [] [] [] r _ _ .list [] (.inside none 0 [] [] [] (TEXT_ION_SYMBOL_TABLE ++ [58, 58]) [] [] _ none [.text TEXT_ION_SYMBOL_TABLE] .struct []
      (.top [] [] _ [] .nil .nil) (.none _ (by simp)) (.cons TEXT_ION_SYMBOL_TABLE [] [] [] _ [] hs gap0 (by simp [TEXT_ION_SYMBOL_TABLE]) (by simp [TextSpec.IsBlank]) .nil) .nil (by simp) (.nil _)
      (fun _ _ => ⟨97, _, rfl, by decide⟩))
    (.some [97] [] [] _ (.sym _ _ ha) gap0 (by simp) (by simp [TextSpec.IsBlank])) .nil .nil (by simp) (.nil _) (by simp)

/-- `$ion_symbol_table::{a:[,` is not loaded, though the list is skipped. -/
example (F : FloatText) (catalog : Catalog) (single : Bool) : ∃ err, load F catalog single (.str [asc "$ion_symbol_table::{a:[,".toList]) = some (.error err) :=
  (C54_wrong_text_is_not_loaded F .start (some .list) 2 _ [44] _ (.start _ _ _ _ _ (open_table F _))
    (.start _ _ _ (by simp [TextSpec.MayFollow, TextSpec.BeginsValue, TextSpec.IdentStart, TextSpec.Digit, TextSpec.OpChar, asc, TextSpec.closing]))
    (by rintro c r' ⟨⟩; simp [TextSpec.IsTokenChar, TextSpec.IsSpace]) (.inr (fine_of rfl)) catalog single _ ⟨rfl, by simp [asc]⟩).1 (by decide)

/-- **C54**  A text that ends within a container, though the reader takes it for the end of the stream, is not loaded: `[1` raises `StopIteration`. -/
theorem C54_truncated_list (F : FloatText) (single : Bool) : load F [] single (.str [chars ['[', '1']]) = some (.error .stopIteration) := loadErr_sound (m := 60) (n := 12) rfl

/-- **C54, what is missing**  `load` does not end on a text that ends within a container that the reader of symbol tables skips: `$ion_symbol_table::{a:[1`.  (`modelFuel`: the reader does
not answer.) -/
theorem C54_truncated_table_hangs (F : FloatText) (single : Bool) :
    load F [] single (.str [chars ['$','i','o','n','_','s','y','m','b','o','l','_','t','a','b','l','e',':',':','{','a',':','[','1']]) = some (.error .modelFuel) :=
  loadErr_sound (m := 60) (n := 40) rfl

/-- **C54, what is missing**  A text that ends within the symbols of a local symbol table is loaded, as if the table were not there: `1 $ion_symbol_table::{symbols:[1,2` loads to one value. -/
theorem C54_truncated_table_loaded (F : FloatText) : ∃ vs, load F [] false (.str [chars "1 $ion_symbol_table::{symbols:[1,2".toList]) = some (.ok vs) ∧ vs.length = 1 :=
  loadLen_sound (m := 80) (n := 60) rfl

end Ion.Simple
