import Verif.Props.LoadWhole
import Verif.Props.LoadTotal
import Verif.Props.Appending
import Verif.Props.Truncation
import Verif.Props.LoadedValues
import Verif.LoadErrors
set_option linter.unusedSimpArgs false
/-!
# C71: what a cut leaves of a file

A process dies while it writes a file, or a file is copied in part: what is read of the part that is left.
-/
namespace Ion.Simple
open Ion Ion.Spec Ion.Simple.Spec Ion.ManagedWriter
open Ion.Text (Pieces toBytes blank_ascii indent_ok)
open Ion.TextWriter (Ascii)
open Ion.TextSpec (IsBlank)
open Ion.ManagedReader (Event Context Handler thunkEvent react)
open Ion.RawReader (Cmd Sees Waiting Chunks StatusOk)

/-! ## Binary files -/

section
variable {doc miss : Bytes} {all : List Top}

/-- An answer of the reader at the bottom, over the beginning of a document. -/
def CutAnswer (doc miss : Bytes) (all : List Top) (x : Except PyErr IonEvent × RawReader.Status × List Bytes) : Prop :=
  match x with
  | (.error _, _, _) => True
  | (.ok e, st, cs) => (e.eventType.isStreamSignal = false ∧ ∃ c, Sees doc all miss st cs c) ∨ (e.eventType = .incomplete ∧ cs = [] ∧ Waiting st) ∨
    (e.eventType = .streamEnd ∧ cs = [] ∧ Waiting st ∧ ∃ c, RawReader.CompleteBefore doc all miss c)

theorem cut_next {st : RawReader.Status} {cs : List Bytes} {c : Cursor} (h : Sees doc all miss st cs c) :
    CutAnswer doc miss all (RawReader.absorb (RawReader.send st .next) cs) := by
  have := RawReader.pull_next h
  unfold RawReader.pull at this
  rcases this with ⟨e, c', st', cs', -, h1, h2, h3⟩ | ⟨-, st', h1, h2⟩ | ⟨h1, st', h2, h3⟩
  · rw [h1]; exact .inl ⟨h3, c', h2⟩
  · rw [h2]; exact .inr (.inl ⟨rfl, rfl, h1⟩)
  · rw [h3]; exact .inr (.inr ⟨rfl, rfl, h2, c, h1⟩)

theorem cut_skip {st : RawReader.Status} {cs : List Bytes} {c : Cursor} (h : Sees doc all miss st cs c) :
    CutAnswer doc miss all (RawReader.absorb (RawReader.send st .skip) cs) := by
  have := RawReader.pull_skip h
  unfold RawReader.pull at this
  rcases this with ⟨e, c', st', cs', -, h1, h2, h3⟩ | ⟨-, st', h1, h2⟩ | ⟨-, h1⟩
  · rw [h1]; exact .inl ⟨h3, c', h2⟩
  · rw [h2]; exact .inr (.inl ⟨rfl, rfl, h1⟩)
  · rw [h1]; trivial

theorem cut_data {st : RawReader.Status} {cs : List Bytes} {c : Cursor} {d : Bytes} (h : Sees doc all miss st cs c) :
    CutAnswer doc miss all (RawReader.absorb (RawReader.send st (.data d)) cs) := by
  obtain ⟨q, stack, pos, input, hst, -, -⟩ := h
  have : ∃ err, RawReader.send st (.data d) = (.error err, .dead) := by rcases hst with rfl | ⟨rfl, -⟩ <;> exact ⟨_, rfl⟩
  obtain ⟨err, he⟩ := this
  rw [he]
  cases cs <;> trivial

theorem absorb_real {e : IonEvent} {st : RawReader.Status} {cs : List Bytes} (h : e.eventType.isStreamSignal = false) :
    RawReader.absorb (.ok e, st) cs = (.ok e, st, cs) := by
  cases cs <;> simp [RawReader.absorb, h]

/-- After an event for the caller the reader is still in the document, or what it has read was a complete stream. -/
theorem cut_gets {ctx : Context} {hd : Option Handler} {r : Except PyErr IonEvent × RawReader.Status}
    {cs : List Bytes} {o : Except PyErr Event × Source (ManagedReader.Status RawReader.Status)} (h : Gets RawReader.send ctx hd r cs o) :
    CutAnswer doc miss all (RawReader.absorb r cs) → (∀ e, r.1 = .ok e → e.eventType.isStreamSignal = true → TextReader.IsSignal e) → (∃ opens, StatusOk opens r.2) →
    ∀ e src, o = (.ok e, src) → (e.eventType = .streamEnd → ∃ c, RawReader.CompleteBefore doc all miss c) ∧ (e.eventType ≠ .streamEnd →
      ∃ st ctx' hd' cs' c, src = .active (.live st ctx' hd') cs' ∧ Sees doc all miss st cs' c ∧ ∃ opens, StatusOk opens st) := by
  have low : ∀ {st : RawReader.Status} {cmd : Cmd}, (∃ opens, StatusOk opens st) →
      (∀ e, (RawReader.send st cmd).1 = .ok e → e.eventType.isStreamSignal = true → TextReader.IsSignal e) ∧ ∃ opens, StatusOk opens (RawReader.send st cmd).2 := by
    rintro st cmd ⟨opens, hok⟩
    rcases RawReader.send_fits hok cmd with ⟨err, h3⟩ | ⟨e', st'', opens', h3, -, h5, -⟩
    · rw [h3]
      exact ⟨by simp, [], .dead _⟩
    · refine ⟨fun e he hs => ?_, opens', by rw [h3]; exact h5⟩
      rw [h3] at he
      cases he
      exact RawReader.send_signal hok h3 hs
  induction h with
  | error => rintro - - - e src ⟨⟩
  | refuse => rintro - - - e src ⟨⟩
  | @give _ _ _ _ e0 _ _ hr hs =>
    intro hc _ hok e src he
    cases he
    rw [absorb_real hs] at hc
    have ht : ∀ c : Context, (thunkEvent c e0).eventType = e0.eventType := fun _ => rfl
    refine ⟨fun h => ?_, fun _ => ?_⟩
    · rw [ht] at h; rw [h] at hs; cases hs
    · rcases hc with ⟨-, c, hc⟩ | ⟨hi, -⟩ | ⟨hi, -⟩
      · exact ⟨_, _, _, _, c, rfl, hc, hok⟩
      · rw [hi] at hs; cases hs
      · rw [hi] at hs; cases hs
  | feed hr hs _ ih =>
    intro hc _ hok e src he
    obtain ⟨l1, l2⟩ := low hok
    refine ih ?_ l1 l2 e src he
    simpa [RawReader.absorb, hs] using hc
  | flush hr hi _ ih =>
    intro hc _ hok e src he
    obtain ⟨l1, l2⟩ := low hok
    refine ih ?_ l1 l2 e src he
    rcases hc with ⟨hs, -⟩ | ⟨-, -, q, stack, l, sk, b, t, rfl⟩ | ⟨hi', -⟩
    · rw [hi] at hs; cases hs
    · trivial
    · rw [hi] at hi'; cases hi'
  | ended hr hi =>
    intro hc _ _ e src he
    cases he
    refine ⟨fun _ => ?_, fun h => absurd rfl h⟩
    rcases hc with ⟨hs, -⟩ | ⟨hi', -⟩ | ⟨-, -, -, hc⟩
    · rw [hi] at hs; cases hs
    · rw [hi] at hi'; cases hi'
    · exact hc
  | @ask _ _ _ _ e' st cmd cs o hr _ ih =>
    intro hc hlow hok e src he
    obtain ⟨l1, l2⟩ := low (cmd := cmd) hok
    refine ih ?_ l1 l2 e src he
    by_cases hs : e'.eventType.isStreamSignal = true
    · rw [react_signal (hlow _ rfl hs)] at hr
      cases hr
    · simp only [Bool.not_eq_true] at hs
      rw [absorb_real hs] at hc
      rcases hc with ⟨-, c, hc⟩ | ⟨hi, -⟩ | ⟨hi, -⟩
      · cases cmd with
        | next => exact cut_next hc
        | skip => exact cut_skip hc
        | data d => exact cut_data hc
      · rw [hi] at hs; cases hs
      · rw [hi] at hs; cases hs

/-- If `load` returns, what it has read is a complete stream. -/
theorem load_complete {st : RawReader.Status} {ctx : Context} {hd : Option Handler} {cs : List Bytes} {c : Cursor} (hsees : Sees doc all miss st cs c)
    (hok : ∃ opens, StatusOk opens st) {single : Bool} {vs : List PyObj}
    (h : loadFrom (ManagedReader.send RawReader.send) single (.active (.live st ctx hd) cs) = some (.ok vs)) : ∃ c, RawReader.CompleteBefore doc all miss c := by
  obtain ⟨es, src1, e, src2, h1, h2, h3, -⟩ := from_whole h
  have step : ∀ {st : RawReader.Status} {ctx : Context} {hd : Option Handler} {cs : List Bytes} {c : Cursor}, Sees doc all miss st cs c → (∃ opens, StatusOk opens st) →
      ∀ {e : Event} {src : Source (ManagedReader.Status RawReader.Status)}, nextEvent (ManagedReader.send RawReader.send) (.active (.live st ctx hd) cs) = some (.ok e, src) →
      (e.eventType = .streamEnd → ∃ c, RawReader.CompleteBefore doc all miss c) ∧ (e.eventType ≠ .streamEnd →
        ∃ st ctx' hd' cs' c, src = .active (.live st ctx' hd') cs' ∧ Sees doc all miss st cs' c ∧ ∃ opens, StatusOk opens st) := by
    rintro st ctx hd cs c hsees ⟨opens, hok⟩ e src hn
    have hg := gets_of_request (raw := RawReader.send) (cmd := .next) (o := (.ok e, src)) hn
    refine cut_gets hg (cut_next hsees) ?_ ?_ e src rfl
    · intro e he hs
      rcases RawReader.send_fits hok .next with ⟨err, h3⟩ | ⟨e', st'', opens', h3, -, h5, -⟩
      · rw [h3] at he; cases he
      · rw [h3] at he
        cases he
        exact RawReader.send_signal hok h3 hs
    · rcases RawReader.send_fits hok .next with ⟨err, h3⟩ | ⟨e', st'', opens', h3, -, h5, -⟩
      · rw [h3]; exact ⟨[], .dead _⟩
      · rw [h3]; exact ⟨_, h5⟩
  clear h
  generalize hsrc : Source.active (ManagedReader.Status.live st ctx hd) cs = src at h1
  induction h1 generalizing st ctx hd cs c with
  | nil => subst hsrc; exact (step hsees hok h2).1 h3
  | cons _ _ _ e1 _ h4 _ ih =>
    subst hsrc
    obtain ⟨s1, s2⟩ := step hsees hok h4
    by_cases ht : e1.eventType = .streamEnd
    · exact s1 ht
    · obtain ⟨st', ctx', hd', cs', c', rfl, k1, k2⟩ := s2 ht
      exact ih k1 k2 h2 rfl

end

theorem scalars_of_mem {P : Scalar Nat → Prop} {items : List (Spec.Node Nat)} (h : ∀ n ∈ items, Spec.AllScalars P [n]) : Spec.AllScalars P items := by
  induction items with
  | nil => exact .nil
  | cons n items ih => exact Spec.AllScalars.append (a := [n]) (h n (by simp)) (ih fun m hm => h m (by simp [hm]))

/-- The user's values of the beginning of a document. -/
theorem user_prefix {catalog : Catalog} : ∀ (a b : List Top) (t : Table) {vs : List (Table × Spec.Node Nat)}, Plain catalog t (a ++ b) →
    userValues catalog t (a ++ b) = .ok vs → Plain catalog t a ∧ ∃ vs1 vs2, vs = vs1 ++ vs2 ∧ userValues catalog t a = .ok vs1 := by
  intro a
  induction a with
  | nil => intro b t vs _ h; exact ⟨trivial, [], vs, rfl, rfl⟩
  | cons x a ih =>
    intro b t vs hp h
    cases x with
    | marker => exact ih b systemTable hp h
    | value n =>
      obtain ⟨p1, p2⟩ := hp
      simp only [userValues, bind, Except.bind, pure, Except.pure, List.cons_append] at h ⊢
      cases hs : systemValue catalog t n with
      | error e => rw [hs] at h; cases h
      | ok r =>
        rw [hs] at h
        cases r with
        | some t' =>
          simp only at h ⊢
          obtain ⟨k1, k2⟩ := ih b t' (p2 t' (.inl hs)) h
          refine ⟨⟨p1, fun t'' ht => ?_⟩, k2⟩
          rcases ht with ht | ht
          · rw [hs] at ht; cases ht; exact k1
          · rw [hs] at ht; cases ht.1
        | none =>
          simp only at h ⊢
          cases hr : userValues catalog t (a ++ b) with
          | error e => rw [hr] at h; cases h
          | ok rest =>
            rw [hr] at h
            simp only [Except.ok.injEq] at h
            subst h
            obtain ⟨k1, vs1, vs2, rfl, k2⟩ := ih b t (p2 t (.inr ⟨hs, rfl⟩)) hr
            refine ⟨⟨p1, fun t'' ht => ?_⟩, (t, n) :: vs1, vs2, rfl, by rw [k2]⟩
            rcases ht with ht | ht
            · rw [hs] at ht; cases ht
            · rw [ht.2]; exact k1

theorem forall₂_split {α β : Type} {R : α → β → Prop} {a1 a2 : List α} {b : List β} (h : List.Forall₂ R (a1 ++ a2) b) :
    ∃ b1 b2, List.Forall₂ R a1 b1 ∧ List.Forall₂ R a2 b2 ∧ b = b1 ++ b2 := by
  induction a1 generalizing b with
  | nil => exact ⟨[], b, .nil, h, rfl⟩
  | cons x a1 ih =>
    cases h with
    | cons h1 h2 =>
      obtain ⟨b1, b2, k1, k2, rfl⟩ := ih h2
      exact ⟨_ :: b1, b2, .cons h1 k1, k2, rfl⟩

theorem cut_core (doc : Bytes) (segs : List (List (Spec.Node Nat))) (hs : IsStream doc segs)
    (hr : ∀ items ∈ segs, Spec.AllScalars RawReader.Readable items) (catalog : Catalog)
    (hp : Plain catalog systemTable (tops segs)) (vs : List (Table × Spec.Node Nat))
    (hu : userValues catalog systemTable (tops segs) = .ok vs) (values : List Val)
    (ht : List.Forall₂ (fun v m => v.2.map v.1.text = m.map .ok) vs values) (part miss : Bytes) (hcut : doc = part ++ miss) :
    (∀ cs, Chunks cs part → ∀ single, ∃ err, loadBinary catalog single cs = some (.error err)) ∨
    ∃ segs' vs' values', IsStream part segs' ∧ (∀ items ∈ segs', Spec.AllScalars RawReader.Readable items) ∧ Plain catalog systemTable (tops segs') ∧
      userValues catalog systemTable (tops segs') = .ok vs' ∧ List.Forall₂ (fun v m => v.2.map v.1.text = m.map .ok) vs' values' ∧ values' <+: values := by
  by_cases hc : ∃ c, RawReader.CompleteBefore doc (tops segs) miss c
  · right
    obtain ⟨c, -, -, a, segs2, h1, h2, h3⟩ := hc
    have ha : a = part := List.append_cancel_right (h1.symm.trans hcut)
    subst ha
    have hr2 : ∀ items ∈ segs2, Spec.AllScalars RawReader.Readable items := by
      intro items hi
      refine scalars_of_mem fun n hn => ?_
      have hm : Top.value n ∈ tops segs := by
        rw [h3]
        exact List.mem_append_left _ (by simp only [tops, List.mem_flatMap]; exact ⟨items, hi, by simp [hn]⟩)
      simp only [tops, List.mem_flatMap, List.mem_cons, List.mem_map, reduceCtorEq, Top.value.injEq, exists_eq_right, false_or] at hm
      obtain ⟨items', hi', hn'⟩ := hm
      exact scalars_mem (hr items' hi') n hn'
    rw [h3] at hu hp
    obtain ⟨k1, vs1, vs2, rfl, k2⟩ := user_prefix (tops segs2) c.top systemTable hp hu
    obtain ⟨v1, v2, hv1, -, rfl⟩ := forall₂_split ht
    exact ⟨segs2, vs1, v1, h2, hr2, k1, k2, hv1, v2, rfl⟩
  · left
    intro cs hcs single
    obtain ⟨r, hl⟩ := C65_load_ends catalog single cs
    cases r with
    | error err => exact ⟨err, hl⟩
    | ok vs => exact absurd (load_complete (RawReader.sees_init hs hr hcut hcs) ⟨[], RawReader.statusOk_init⟩ hl) hc

/-- A file of which the first byte is not ASCII, and that does not begin with the binary version marker, is not loaded. -/
theorem load_above_ascii (F : FloatText) (catalog : Catalog) (single : Bool) {cs : List Bytes} {b : UInt8} {bs : Bytes} (hc : Chunks cs (b :: bs)) (hb : 128 ≤ b.toNat)
    (hm : (b :: bs).take 4 ≠ [0xE0, 0x01, 0x00, 0xEA]) : ∃ err, load F catalog single (.bytes cs) = some (.error err) := by
  have hf : formatOf false cs.flatten = .text := by
    rw [hc.1]
    simp only [formatOf, Bool.false_eq_true, if_false]
    rw [if_neg (show ¬ _ = IVM from hm)]
  have hflat : ∀ l : List Bytes, l.flatMap TextReader.byteUnits = TextReader.byteUnits l.flatten := by
    intro l
    induction l with
    | nil => rfl
    | cons x l ih => simp only [List.flatMap_cons, ih, List.flatten_cons, TextReader.byteUnits, List.map_append]
  have hx : cs.flatMap TextReader.byteUnits = [] ++ (b.toNat :: TextReader.byteUnits bs) := by rw [hflat, hc.1]; rfl
  have hlt : b.toNat < 256 := b.toNat_lt
  have ha := Ion.Text.wrong_answers (F := F) (pos := .start) (p := none) (d := 0) (t := []) (r := b.toNat :: TextReader.byteUnits bs) (es := []) (.start _ _ _ _ _ (.top [] [] _ [] .nil .nil))
    (.start _ _ _ (by
      simp only [TextSpec.MayFollow, TextSpec.BeginsValue, TextSpec.IdentStart, TextSpec.Digit, asc, reduceCtorEq, false_and, or_false]
      simp
      omega)) (by
        rintro c r' ⟨⟩
        simp only [TextSpec.IsTokenChar, TextSpec.IsSpace]
        simp
        omega) (by
      intro c h
      rcases List.mem_cons.1 h with rfl | h
      · omega
      · obtain ⟨x, -, rfl⟩ := List.mem_map.1 h
        have := x.toNat_lt
        omega)
  rw [← hx] at ha
  have hne : ∀ d ∈ cs, TextReader.byteUnits d ≠ [] := by
    intro d hd h
    exact hc.2 d hd (List.map_eq_nil_iff.1 h)
  obtain ⟨err, h⟩ := load_of_reading_error (single := single) (catalog := catalog) (TextReader.reading_of_answers hne ha) (never_skips (fun e he => absurd he (by simp)) _)
  exact ⟨err, by simp only [load, hf]; exact h⟩

theorem stream_begins {doc : Bytes} {segs : List (List (Spec.Node Nat))} (h : IsStream doc segs) : doc = [] ∨ ∃ rest, doc = 0xE0 :: 0x01 :: 0x00 :: 0xEA :: rest := by
  cases h with
  | nil => exact .inl rfl
  | segment body rest items segs _ _ => exact .inr ⟨body ++ rest, rfl⟩

/-- A complete document is read by the binary reader (and if it is empty, it does not matter by which). -/
theorem load_stream {F : FloatText} (hF : TextSpec.Faithful F) {catalog : Catalog} (hcat : Catalog.Registered catalog) {doc : Bytes} {segs : List (List (Spec.Node Nat))} (h : IsStream doc segs)
    {cs : List Bytes} (hc : Chunks cs doc) (single : Bool) : load F catalog single (.bytes cs) = loadBinary catalog single cs := by
  rcases stream_begins h with rfl | ⟨rest, rfl⟩
  · have hcs : cs = [] := by
      cases cs with
      | nil => rfl
      | cons c cs => exact absurd (List.append_eq_nil_iff.1 hc.1).1 (hc.2 c (by simp))
    subst hcs
    obtain ⟨objs, -, a2, -, -, -, a4, -⟩ := C61_text_records_partial F hF catalog hcat [] [] .nil
    have hobjs : objs = [] := List.eq_nil_of_length_eq_zero a2
    subst hobjs
    have a5 := a4 (by simp [Ascii]) [] ⟨rfl, by simp⟩
    obtain ⟨objs, -, b2, b3⟩ := C13_load_document [] [] .nil (by simp) catalog hcat trivial [] rfl [] .nil
    have hobjs : objs = [] := List.eq_nil_of_length_eq_zero b2
    subst hobjs
    have b4 := b3 [] ⟨rfl, by simp⟩
    cases single with
    | false => exact a5.1.trans b4.1.symm
    | true => exact a5.2.trans b4.2.symm
  · simp only [load, hc.1, formatOf, Bool.false_eq_true, if_false]
    rw [if_pos (show List.take 4 _ = IVM from rfl)]

/-- The beginning of a document that the binary reader refuses is refused by `load`. -/
theorem load_cut (F : FloatText) {catalog : Catalog} {part miss : Bytes} {segs : List (List (Spec.Node Nat))} (h : IsStream (part ++ miss) segs) {cs : List Bytes} (hc : Chunks cs part) {single : Bool}
    {err : PyErr} (hl : loadBinary catalog single cs = some (.error err)) (hne : part ≠ []) : ∃ err, load F catalog single (.bytes cs) = some (.error err) := by
  rcases stream_begins h with h | ⟨rest, h⟩
  · exact absurd (List.append_eq_nil_iff.1 h).1 hne
  · by_cases hm : part.take 4 = [0xE0, 0x01, 0x00, 0xEA]
    · refine ⟨err, ?_⟩
      simp only [load, hc.1, formatOf, Bool.false_eq_true, if_false]
      rw [if_pos (show _ = IVM from hm)]
      exact hl
    · cases part with
      | nil => exact absurd rfl hne
      | cons b bs =>
        have hb : b = 0xE0 := by simp only [List.cons_append, List.cons.injEq] at h; exact h.1
        exact load_above_ascii F catalog single hc (by rw [hb]; decide) hm

/-- **C71** (binary).  A file holds a binary document (of which the symbols are defined), but only the beginning `part` of it is left.  Either
`load` raises, however `read` divides the part; or the part is a complete document by itself, and `load` returns objects that mean the first
few of the values of the whole document, in order, unaltered. -/
theorem C71_cut_document (F : FloatText) (hF : TextSpec.Faithful F) (doc : Bytes) (segs : List (List (Spec.Node Nat))) (hs : IsStream doc segs)
    (hr : ∀ items ∈ segs, Spec.AllScalars RawReader.Readable items) (catalog : Catalog)
    (hcat : Catalog.Registered catalog) (hp : Plain catalog systemTable (tops segs)) (vs : List (Table × Spec.Node Nat))
    (hu : userValues catalog systemTable (tops segs) = .ok vs) (values : List Val)
    (ht : List.Forall₂ (fun v m => v.2.map v.1.text = m.map .ok) vs values) (part miss : Bytes) (hcut : doc = part ++ miss) :
    (∀ cs, Chunks cs part → ∀ single, ∃ err, load F catalog single (.bytes cs) = some (.error err)) ∨
    ((∃ segs', IsStream part segs') ∧ ∃ values' objs, values' <+: values ∧ Mean objs values' ∧ objs.length = values'.length ∧ ∀ cs, Chunks cs part →
      load F catalog false (.bytes cs) = some (.ok objs) ∧
      load F catalog true (.bytes cs) = some (if values'.length = 1 then .ok objs else .error .ionException)) := by
  have hs0 := hs
  rcases cut_core doc segs hs hr catalog hp vs hu values ht part miss hcut with h | ⟨segs2, vs1, v1, h2, hr2, k1, k2, hv1, hpre⟩
  · left
    intro cs hcs single
    obtain ⟨err, hl⟩ := h cs hcs single
    refine load_cut F (hcut ▸ hs0) hcs hl ?_
    rintro rfl
    obtain ⟨objs, -, -, m3⟩ := C13_load_document [] [] .nil (by simp) catalog hcat trivial [] rfl [] .nil
    obtain ⟨err, hl⟩ := h cs hcs false
    rw [(m3 cs hcs).1] at hl
    cases hl
  · obtain ⟨objs, m1, m2, m3⟩ := C13_load_document part segs2 h2 hr2 catalog hcat k1 vs1 k2 v1 hv1
    refine .inr ⟨⟨segs2, h2⟩, v1, objs, hpre, m1, m2, fun cs hcs => ?_⟩
    rw [load_stream hF hcat h2 hcs, load_stream hF hcat h2 hcs]
    exact m3 cs hcs

/-- **C71** (binary, inside a value).  If the part ends strictly inside a value at the top level, `load` raises. -/
theorem C71_cut_value (F : FloatText) (pre v1 v2 post : Bytes) (n : Spec.Node Nat) (segs segs0 : List (List (Spec.Node Nat)))
    (hdoc : IsStream (pre ++ (v1 ++ v2) ++ post) segs) (hr : ∀ items ∈ segs, Spec.AllScalars RawReader.Readable items)
    (hpre : IsStream pre segs0) (hv : Ion.Spec.IsValue (v1 ++ v2) n) (h1 : v1 ≠ []) (h2 : v2 ≠ []) (catalog : Catalog) (cs : List Bytes)
    (hc : Chunks cs (pre ++ v1)) (single : Bool) : ∃ err, load F catalog single (.bytes cs) = some (.error err) := by
  have hdoc' : IsStream ((pre ++ v1) ++ (v2 ++ post)) segs := by simpa using hdoc
  obtain ⟨r, hl⟩ := C65_load_ends catalog single cs
  cases r with
  | error err => exact load_cut F hdoc' hc hl (by simp [h1])
  | ok vs =>
    obtain ⟨c, -, -, a, segs2, k1, k2, -⟩ := load_complete (RawReader.sees_init (miss := v2 ++ post) hdoc hr (by simp) hc) ⟨[], RawReader.statusOk_init⟩ hl
    have : a = pre ++ v1 := by
      have : pre ++ v1 ++ (v2 ++ post) = a ++ (v2 ++ post) := by rw [← k1]; simp
      exact (List.append_cancel_right this).symm
    subst this
    exact absurd k2 (cut_not_stream hpre hv h1 h2 segs2)

/-- **C71** (binary records).  Documents are appended to a file, each with a `dump` of its own (C61), and the file is cut within the next one.  Either
`load` raises, or it returns objects that mean all values of the documents that were complete, followed by the first few values of the one that was
cut, in order, unaltered. -/
theorem C71_cut_records (F : FloatText) (hF : TextSpec.Faithful F) (history : List SymbolTable) (hs : ∀ t ∈ history, Catalog.Spec.Shared t) (catalog : Catalog)
    (hc : Catalog.Spec.registerAll history = .ok catalog) (docs : List Bytes) (values : List (List Val)) (h : List.Forall₂ (BinaryRecord history) docs values)
    (doc : Bytes) (more : List Val) (hd : BinaryRecord history doc more) (part miss : Bytes) (hcut : doc = part ++ miss) :
    (∀ cs, Chunks cs (docs.flatten ++ part) → ∀ single, ∃ err, load F catalog single (.bytes cs) = some (.error err)) ∨
    ∃ more' objs, more' <+: more ∧ Mean objs (values.flatten ++ more') ∧ objs.length = values.flatten.length + more'.length ∧
      ∀ cs, Chunks cs (docs.flatten ++ part) → load F catalog false (.bytes cs) = some (.ok objs) := by
  obtain ⟨segs1, vs1, a1, a2, a3, a4⟩ := records_stream hs hc h
  obtain ⟨segs2, vs2, b1, b2, b3, b4⟩ := record_stream hs hc hd
  have hcat : Catalog.Registered catalog := ⟨history, hs, hc⟩
  have hall := user_append b3 (tops segs1) systemTable vs1 (a3 systemTable)
  have hstream := stream_append a1 b1
  have hread : ∀ items ∈ segs1 ++ segs2, Spec.AllScalars RawReader.Readable items := by
    intro items hi
    rcases List.mem_append.1 hi with hi | hi
    · exact a2 items hi
    · exact b2 items hi
  have htops : tops (segs1 ++ segs2) = tops segs1 ++ tops segs2 := by simp [tops]
  rw [← htops] at hall
  have hvals := forall₂_append a4 b4
  rcases C71_cut_document F hF _ _ hstream hread catalog hcat hall.2 _ hall.1 _ hvals (docs.flatten ++ part) miss (by rw [hcut, List.append_assoc]) with hl | ⟨⟨segs4, hseg⟩, v3, objs, c6, m1, m2, m3⟩
  · exact .inl hl
  · right
    -- the complete documents are themselves the beginning of a document
    have hch := pieces_chunks 1 (by decide) docs.flatten
    have hlen : values.flatten.length ≤ v3.length := by
      rcases cut_core _ _ hstream hread catalog hall.2 _ hall.1 _ hvals (docs.flatten ++ part) miss (by rw [hcut, List.append_assoc]) with e0 | ⟨segs3, vs3, v4, c1, c2, c3, c4, c5, -⟩
      · obtain ⟨err, e0⟩ := e0 _ (pieces_chunks 1 (by decide) _) false
        rw [← load_stream hF hcat hseg (pieces_chunks 1 (by decide) _), (m3 _ (pieces_chunks 1 (by decide) _)).1] at e0
        cases e0
      · obtain ⟨objs5, -, f2, f3⟩ := C13_load_document _ segs3 c1 c2 catalog hcat c3 vs3 c4 v4 c5
        have hsame : objs5.length = objs.length := by
          have e1 := (m3 _ (pieces_chunks 1 (by decide) _)).1
          rw [load_stream hF hcat hseg (pieces_chunks 1 (by decide) _), (f3 _ (pieces_chunks 1 (by decide) _)).1] at e1
          simp only [Option.some.injEq, Except.ok.injEq] at e1
          rw [e1]
        obtain ⟨objsA, d1, d2, -, d4⟩ := C61_binary_records history hs catalog hc docs values h
        rcases C71_cut_document F hF _ segs3 c1 c2 catalog hcat c3 vs3 c4 v4 c5 docs.flatten part rfl with e1 | ⟨⟨segs6, g1⟩, v6, objs6, e1, -, e3, e4⟩
        · obtain ⟨err, e1⟩ := e1 _ hch false
          rw [load_stream hF hcat a1 hch, d4 _ hch] at e1
          cases e1
        · have := (e4 _ hch).1
          rw [load_stream hF hcat g1 hch, d4 _ hch] at this
          cases this
          have := e1.length_le
          omega
    have hpre : values.flatten <+: v3 := List.prefix_of_prefix_length_le (List.prefix_append _ _) c6 hlen
    obtain ⟨more', rfl⟩ := hpre
    exact ⟨more', objs, (List.prefix_append_right_inj _).1 c6, m1, by rw [m2, List.length_append], fun cs hcs => (m3 cs hcs).1⟩

/-! ## Lines of text -/

/-- **C71** (text)  Without an indent, everything that `dump` writes, for any object and even if it raises, is printable ASCII: a record is one line. -/
theorem C71_one_line (F : FloatText) (hF : TextSpec.Faithful F) (omitVersionMarker sequenceAsStream tupleAsSexp : Bool) (o : PyObj) :
    ∀ c ∈ (dumpText F none omitVersionMarker sequenceAsStream tupleAsSexp o).1, 32 ≤ c ∧ c ≤ 126 := by
  have key : ∀ (evs : List IonEvent) (s : TextWriter.State), ∀ c ∈ (TextWriter.runText F none s evs).1, 32 ≤ c ∧ c ≤ 126 := by
    intro evs s c hc
    rcases TextWriter.layout_run hF evs s c hc with h | ⟨t, h, -⟩
    · exact h
    · cases h
  unfold dumpText
  simp only [TextWriter.checkIndent]
  generalize Sent.andThen _ _ = sent
  have k1 := key sent.1 {}
  generalize TextWriter.runText F none {} sent.1 = r1 at k1
  obtain ⟨out, x⟩ := r1
  cases x with
  | error err => exact k1
  | ok st =>
    simp only
    cases sent.2 with
    | some err => exact k1
    | none =>
      have k2 := key [ION_STREAM_END_EVENT] st
      generalize TextWriter.runText F none st [ION_STREAM_END_EVENT] = r2 at k2
      obtain ⟨out', x⟩ := r2
      have k3 : ∀ c ∈ out ++ out', 32 ≤ c ∧ c ≤ 126 := by
        intro c hc
        rcases List.mem_append.1 hc with hc | hc
        · exact k1 c hc
        · exact k2 c hc
      cases x <;> exact k3

/-- A text that `dump` wrote without an indent, of an object that stands for these Ion values (the conditions of C49). -/
def LineRecord (F : FloatText) (t : Text) (values : List Val) : Prop :=
  ∃ (omitVersionMarker sequenceAsStream tupleAsSexp : Bool) (o : PyObj),
    AreValues tupleAsSexp (argText systemTable) (topLevel sequenceAsStream o) values ∧
    (∀ a ∈ namesInAll (topLevel sequenceAsStream o), SafeSymbol a) ∧ (∀ p ∈ scalarsInAll (topLevel sequenceAsStream o), SafeScalar tupleAsSexp p.1 p.2) ∧
    (∀ n ∈ values, ¬ SystemLike n ∧ ¬ VersionLike n) ∧
    dumpText F none omitVersionMarker sequenceAsStream tupleAsSexp o = (t, .ok ())

/-- A file of lines: every text is followed by a line feed. -/
def lines (ts : List Text) : Text := ts.flatMap (· ++ [10])

/-- The complete lines of a file: everything up to its last line feed. -/
def completeLines (t : Text) : Text := (t.reverse.dropWhile (· ≠ 10)).reverse

theorem lines_cut : ∀ (ts : List Text), (∀ t ∈ ts, (10 : Nat) ∉ t) → ∀ (part miss : Text), lines ts = part ++ miss →
    part.count 10 ≤ ts.length ∧ ∃ rest, part = lines (ts.take (part.count 10)) ++ rest ∧ (10 : Nat) ∉ rest := by
  intro ts
  induction ts with
  | nil =>
    intro _ part miss h
    obtain ⟨rfl, -⟩ := List.append_eq_nil_iff.1 h.symm
    exact ⟨by simp, [], by simp [lines], by simp⟩
  | cons t ts ih =>
    intro hno part miss h
    have e : lines (t :: ts) = (t ++ [10]) ++ lines ts := by simp [lines]
    rw [e] at h
    have ht : (10 : Nat) ∉ t := hno t (by simp)
    rcases List.append_eq_append_iff.1 h with ⟨a, h1, h2⟩ | ⟨a, h1, h2⟩
    · -- the whole first line is there
      obtain ⟨k1, rest, k2, k3⟩ := ih (fun x hx => hno x (by simp [hx])) a miss h2
      subst h1
      have hc : (t ++ [10] ++ a).count 10 = a.count 10 + 1 := by
        rw [List.count_append, List.count_append, List.count_eq_zero.2 ht]
        simp
        omega
      refine ⟨by rw [hc]; simpa using k1, rest, ?_, k3⟩
      rw [hc, List.take_succ_cons]
      have : lines (t :: ts.take (a.count 10)) = (t ++ [10]) ++ lines (ts.take (a.count 10)) := by simp [lines]
      rw [this, List.append_assoc (t ++ [10]), ← k2]
    · by_cases ha : a = []
      · subst ha
        simp only [List.append_nil] at h1
        subst h1
        have hc : (t ++ [10]).count 10 = 1 := by rw [List.count_append, List.count_eq_zero.2 ht]; rfl
        refine ⟨by rw [hc]; simp, [], ?_, by simp⟩
        rw [hc]
        simp [lines]
      · have hp : (10 : Nat) ∉ part := by
          obtain ⟨a', x, rfl⟩ : ∃ a' x, a = a' ++ [x] := ⟨a.dropLast, a.getLast ha, (List.dropLast_append_getLast ha).symm⟩
          rw [← List.append_assoc] at h1
          obtain ⟨h3, -⟩ := List.append_inj' h1 rfl
          intro h4
          exact ht (by rw [h3]; simp [h4])
        have hc : part.count 10 = 0 := List.count_eq_zero.2 hp
        rw [hc]
        exact ⟨Nat.zero_le _, part, by simp [lines], hp⟩

theorem completeLines_lines (ts : List Text) (rest : Text) (h : (10 : Nat) ∉ rest) : completeLines (lines ts ++ rest) = lines ts := by
  have hd : ∀ (r l : List Nat), (10 : Nat) ∉ r → (l = [] ∨ ∃ l', l = 10 :: l') → (r ++ l).dropWhile (· ≠ 10) = l := by
    intro r l hr hl
    induction r with
    | nil =>
      rcases hl with rfl | ⟨l', rfl⟩
      · rfl
      · simp
    | cons x r ih =>
      have hx : x ≠ 10 := fun h => hr (by simp [h])
      rw [List.cons_append, List.dropWhile_cons_of_pos (by simpa using hx)]
      exact ih fun h => hr (by simp [h])
  unfold completeLines
  rw [List.reverse_append, hd _ _ (by simpa using h)]
  · simp
  · rcases ts.eq_nil_or_concat with rfl | ⟨ts', t, rfl⟩
    · exact .inl rfl
    · right
      simp [lines]

/-- **C71** (text)  Texts are appended to a file, each with a `dump` of its own without an indent, each followed by a line feed, and the file is cut at
any character.  The complete lines of what is left (everything up to the last line feed) are the first records, as many as there are line feeds, and
`load` and `loads` of them return objects that mean the values of these records, in order, unaltered.  (What is missing: `C71_torn_line_is_loaded`.) -/
theorem C71_complete_lines_partial (F : FloatText) (hF : TextSpec.Faithful F) (catalog : Catalog) (hcat : Catalog.Registered catalog) (records : List Text) (values : List (List Val))
    (h : List.Forall₂ (LineRecord F) records values) (part miss : Text) (hcut : lines records = part ++ miss) :
    completeLines part = lines (records.take (part.count 10)) ∧ part.count 10 ≤ records.length ∧
      ∃ objs, Mean objs (values.take (part.count 10)).flatten ∧ objs.length = (values.take (part.count 10)).flatten.length ∧ LoadsAs F catalog (completeLines part) objs := by
  have hno : ∀ t ∈ records, (10 : Nat) ∉ t := by
    intro t ht h10
    have : ∃ vs, LineRecord F t vs := by
      clear hcut
      induction h with
      | nil => cases ht
      | cons h1 _ ih =>
        rcases List.mem_cons.1 ht with rfl | ht
        · exact ⟨_, h1⟩
        · exact ih ht
    obtain ⟨vs, b1, b2, b3, o, -, -, -, -, hd⟩ := this
    have := C71_one_line F hF b1 b2 b3 o 10 (by rw [hd]; exact h10)
    omega
  obtain ⟨k1, rest, k2, k3⟩ := lines_cut records hno part miss hcut
  have hcl : completeLines part = lines (records.take (part.count 10)) := by
    conv_lhs => rw [k2]
    exact completeLines_lines _ _ k3
  have hrec : ∀ {rs : List Text} {vss : List (List Val)} (n : Nat), List.Forall₂ (LineRecord F) rs vss →
      List.Forall₂ (fun r vs => TextRecord F r.1 vs ∧ Separates r.2) ((rs.take n).map fun t => (t, [10])) (vss.take n) := by
    intro rs vss n hh
    induction hh generalizing n with
    | nil => simp
    | @cons t vs rs vss h1 _ ih =>
      cases n with
      | zero => exact .nil
      | succ n =>
        obtain ⟨b1, b2, b3, o, g1, g2, g3, g4, g5⟩ := h1
        refine .cons ⟨⟨none, b1, b2, b3, o, by simp, g1, g2, g3, g4, g5⟩, ?_⟩ (ih n)
        exact ⟨by simp [IsBlank, TextSpec.IsSpace], 10, [], rfl, by decide, by decide⟩
  obtain ⟨objs, m1, m2, -, m4⟩ := C61_text_records_partial F hF catalog hcat _ _ (hrec (part.count 10) h)
  have hfl : ∀ (l : List Text), ((l.map fun t => (t, [10])).flatMap fun r : Text × Text => r.1 ++ r.2) = lines l := by
    intro l
    simp [lines, List.flatMap_map]
  rw [hfl, ← hcl] at m4
  exact ⟨hcl, k1, objs, m1, m2, m4⟩

/-- **C71, what is missing**  Loaded as it is, a torn last line may be taken for another value, without an exception: `dump(True)` writes `$ion_1_0 true`, of which all
but the last character is loaded as the symbol `tru`. -/
theorem C71_torn_line_is_loaded (F : FloatText) :
    dumpText F none false false false (.scalar (.plain .bool) (.bool true)) = (Text.chars "$ion_1_0 true".toList, .ok ()) ∧
    ∃ vs, load F [] false (.str [Text.chars "$ion_1_0 tru".toList]) = some (.ok vs) ∧ firstIsSymbol (Text.chars "tru".toList) vs = true :=
  ⟨(C61_text_needs_separator F).1, loadTest_sound (m := 80) (n := 60) rfl⟩

/-! ## Examples -/

/-- Non-vacuity of the binary part: two documents of the sample object of C12, and a third one of which the beginning is left. -/
example : ∃ doc, List.Forall₂ (BinaryRecord []) [doc, doc] [[sampleValue], [sampleValue]] ∧ BinaryRecord [] doc [sampleValue] ∧ doc = doc.take 5 ++ doc.drop 5 := by
  obtain ⟨doc, h⟩ := sample_record
  exact ⟨doc, .cons h (.cons h .nil), h, (List.take_append_drop 5 doc).symm⟩

/-- Both alternatives: the document of `true` and `false`, cut between them, and the document of two ints of two bytes, cut within the second. -/
example (F : FloatText) (single : Bool) : (∃ vs, load F [] false (.bytes [[0xE0, 0x01, 0x00, 0xEA, 0x11]]) = some (.ok vs) ∧ (vs.length == 1) = true) ∧
    load F [] single (.bytes [[0xE0, 0x01, 0x00, 0xEA, 0x21, 0x01, 0x21]]) = some (.error .typeError) :=
  ⟨binaryTest_sound (n := 20) (test := fun vs => vs.length == 1) (by with_unfolding_all rfl), binaryErrN_sound (n := 20) (by with_unfolding_all rfl) single⟩

/-- Non-vacuity of the text part: two lines of the sample object of C12, cut within the second. -/
example (F : FloatText) (hF : TextSpec.Faithful F) : ∃ t, List.Forall₂ (LineRecord F) [t, t] [[sampleValue], [sampleValue]] ∧
    lines [t, t] = (t ++ 10 :: t) ++ [10] ∧ completeLines (t ++ 10 :: t) = t ++ [10] := by
  obtain ⟨h1, h2, h3, h4⟩ := sample_text
  obtain ⟨t, hd, -⟩ := C49_dump_load_text_partial F hF none (by simp) false false false sampleObj [sampleValue] h1 h2 h3 h4 [] ManagedReader.registered_empty
  have hr : LineRecord F t [sampleValue] := ⟨false, false, false, sampleObj, h1, h2, h3, h4, hd⟩
  have hn : (10 : Nat) ∉ t := fun h => by
    have := C71_one_line F hF false false false sampleObj 10 (by rw [hd]; exact h)
    omega
  refine ⟨t, .cons hr (.cons hr .nil), by simp [lines], ?_⟩
  have := completeLines_lines [t] t hn
  simpa [lines] using this

end Ion.Simple
