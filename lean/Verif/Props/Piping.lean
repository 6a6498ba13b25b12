import Verif.Props.Transcoding

set_option linter.unusedSimpArgs false
set_option linter.unusedVariables false

/-! # Property C73: the events of a reader can be sent to a writer

Every event that a reader returned for a document is sent, unchanged, to a writer of either format.  What is written is read as the
values of the document. -/

namespace Ion.Simple
open Ion Ion.Spec Ion.Simple.Spec Ion.ManagedWriter
open Ion.ManagedReader (Event pulls)
open Ion.RawReader (Chunks)
open Ion.Text (blank_ascii)
open Ion.TextWriter (Ascii)

/-! ## Events whose values a format can express -/

/-- The scalar of an event, as a reader gives it. -/
def FineScalar (P : Scalar (Option Text) → Prop) (Q : Text → Prop) (ty : IonType) (v : PyVal) : Prop :=
  nativeScalar ty v ∧ ∃ x, scalarOf seenText ty v = some x ∧ P x ∧ ∀ s, x = .symbol s → ∃ t, s = some t ∧ Q t

/-- An event of a reader of which every symbol is known, and whose scalar (if any) has `P`. -/
structure KnownEvent (P : Scalar (Option Text) → Prop) (Q : Text → Prop) (e : IonEvent) : Prop where
  field : ∀ f, e.fieldName = some f → (∃ t, seenText f = some (some t) ∧ Q t) ∧ ∃ k, f = .tok k
  ann : ∀ a ∈ e.annotations, ∃ t, seenText a = some (some t) ∧ Q t
  value : ∃ ty, e.ionType = some ty ∧ (e.value = .ok none ∨ e.eventType = .scalar ∧ ∃ v, e.value = .ok (some v) ∧ FineScalar P Q ty v)

theorem fine_known {P : Scalar (Option Text) → Prop} {Q : Text → Prop} {ty : IonType} {v : PyVal} (h : FineScalar P Q ty v) : KnownScalar P Q (.ion (some ty) [], v) := by
  obtain ⟨h1, x, h2, h3, h4⟩ := h
  exact ⟨ty, [], x, rfl, h1, h2, h3, h4⟩

theorem known_good {limit : Nat} {a : SymArg} (h : ∃ t, seenText a = some (some t) ∧ EncodableText t) : GoodSym limit a := by
  obtain ⟨t, ht, hq⟩ := h
  cases a with
  | text u => cases ht; exact hq
  | tok k =>
    simp only [seenText, Option.some.injEq] at ht
    simp only [GoodSym, ht]
    exact hq

/-- A symbol given by a reader is a token. -/
theorem fine_token {P : Scalar (Option Text) → Prop} {Q : Text → Prop} {v : PyVal} (h : FineScalar P Q .symbol v) :
    ∃ k t, v = .sym k ∧ k.text = some t ∧ Q t := by
  obtain ⟨h1, x, h2, h3, h4⟩ := h
  cases v <;> simp only [nativeScalar] at h1
  rename_i k
  simp only [scalarOf, if_true, asSymbol, Option.bind_some, seenText, Option.map_some, Option.some.injEq] at h2
  obtain ⟨t, ht, hq⟩ := h4 _ h2.symm
  exact ⟨k, t, rfl, ht, hq⟩

theorem fine_asToken {P : Scalar (Option Text) → Prop} {Q : Text → Prop} {e : IonEvent} (h : KnownEvent P Q e) : asToken e = e := by
  obtain ⟨ty, h1, h2⟩ := h.value
  unfold asToken
  split
  · next hs =>
    rcases h2 with h2 | ⟨_, v, h2, h3⟩
    · rw [h2]
    · rw [h1] at hs
      cases hs
      obtain ⟨k, t, rfl, _⟩ := fine_token h3
      rw [h2]
  · rfl

/-- What events of a reader say, they say to a writer. -/
theorem fine_given {P : Scalar (Option Text) → Prop} {Q : Text → Prop} {t0 : Table} {ies : List IonEvent} {values : List Val} (hf : ∀ e ∈ ies, KnownEvent P Q e)
    (h : valuesOf seenText (fun k => some k.text) ies = some values) : valuesGiven t0 ies = some values := by
  have hm : ies.map asToken = ies := by
    conv => rhs; rw [← List.map_id ies]
    exact List.map_congr_left fun e he => fine_asToken (hf e he)
  unfold valuesGiven
  rw [hm]
  have key := valuesOf_map (f := (id : Option Text → Option Text)) (sym' := argText t0) (symTok' := fun k => argText t0 (.tok k)) ies
    (fun e he a ha s hs => by
      have : ∃ t, seenText a = some (some t) ∧ Q t := by
        rcases ha with ha | ha
        · exact ((hf e he).field a ha).1
        · exact (hf e he).ann a ha
      obtain ⟨t, ht, _⟩ := this
      rw [ht] at hs
      cases hs
      exact argText_known ht)
    (fun e he k h1 h2 s hs => by
      obtain ⟨ty, h3, h4⟩ := (hf e he).value
      rw [h1] at h3
      cases h3
      rcases h4 with h4 | ⟨_, v, h4, h5⟩
      · rw [h4] at h2; cases h2
      · rw [h4] at h2
        cases h2
        obtain ⟨k', t, h6, h7, _⟩ := fine_token h5
        cases h6
        cases hs
        simp only [id, h7]
        exact argText_known (by simp [seenText, h7]))
    values h
  rw [key]
  have : (Node.map (id : Option Text → Option Text)) = id := by
    funext n
    refine Spec.Node.rec (motive_1 := fun n => Node.map (id : Option Text → Option Text) n = id n)
      (motive_2 := fun ns => mapAll (id : Option Text → Option Text) ns = ns) ?_ ?_ ?_ ?_ n
    · intro f a x
      cases x <;> simp [Node.map, Scalar.map]
    · intro f a ty items ih
      simp [Node.map, ih]
    · rfl
    · intro n ns h1 h2
      simp only [mapAll, h1, h2, id]
  rw [this, List.map_id]

/-- The conditions of the binary writer (C15). -/
theorem fine_returns {T0 : Table} {limit : Nat} {ies : List IonEvent} {values : List Val} (hf : ∀ e ∈ ies, KnownEvent BinaryScalar EncodableText e)
    (h : valuesOf seenText (fun k => some k.text) ies = some values) (hu : ∀ n ∈ values, ¬ SystemLike n) : Returns T0 limit ies := by
  refine ⟨⟨values, fine_given hf h, hu⟩, fun e he => ⟨?_, fun a ha => known_good ((hf e he).ann a ha), ?_⟩, fun e he => ?_⟩
  · intro f hfn
    obtain ⟨h1, k, rfl⟩ := (hf e he).field f hfn
    exact ⟨by simp, known_good h1⟩
  · intro hs
    obtain ⟨ty, h1, h2⟩ := (hf e he).value
    rcases h2 with h2 | ⟨_, v, h2, h3⟩
    · exact .inl h2
    · rw [hs] at h1
      cases h1
      obtain ⟨k, t, rfl, h4, h5⟩ := fine_token h3
      exact .inr ⟨_, .tok k, h2, rfl, known_good ⟨t, by simp [seenText, h4], h5⟩⟩
  · obtain ⟨ty, h1, h2⟩ := (hf e he).value
    have key : ∀ v, e.value = .ok (some v) → Expressible v := by
      intro v hv
      rcases h2 with h2 | ⟨_, w, h2, h3⟩
      · rw [h2] at hv; cases hv
      · rw [h2] at hv
        cases hv
        exact (known_expressible (fine_known h3)).1
    exact ⟨fun _ v hv => (key v hv).1, fun _ v hv => (key v hv).2.1, fun _ d hd => (key _ hd).2.2 d rfl⟩

/-- The conditions of the text writer (C49). -/
theorem fine_safe {e : IonEvent} (hf : KnownEvent TextScalar (fun t => TextSpec.IsUnicode t ∧ ¬ TextSpec.IsSidText t) e) : TextSpec.EventSafe e := by
  obtain ⟨ty, h1, h2⟩ := hf.value
  refine ⟨?_, ?_⟩
  · intro a ha
    simp only [TextSpec.symbolsOf, List.mem_append, Option.mem_toList] at ha
    rcases ha with (ha | ha) | ha
    · obtain ⟨⟨t, h3, h4⟩, -⟩ := hf.field a (by simpa using ha)
      exact safe_known h3 h4
    · obtain ⟨t, h3, h4⟩ := hf.ann a ha
      exact safe_known h3 h4
    · rcases h2 with h2 | ⟨_, v, h2, h3⟩
      · rw [h1, h2] at ha
        simp at ha
      · by_cases hs : ty = .symbol
        · subst hs
          obtain ⟨k, t, rfl, h4, h5⟩ := fine_token h3
          rw [h1, h2] at ha
          simp only [List.mem_singleton] at ha
          subst ha
          exact safe_known (t := t) (by simp [seenText, h4]) h5
        · rw [h1, h2] at ha
          cases ty <;> first | exact absurd rfl hs | simp at ha
  · intro v hv
    rcases h2 with h2 | ⟨_, w, h2, h3⟩
    · rw [h2] at hv; cases hv
    · rw [h2] at hv
      cases hv
      exact (known_safe (b := false) (fine_known h3)).1

/-! ## The events of a binary document -/

theorem known_list {Q : Text → Prop} : ∀ {ks : List SymbolToken} {a : List (Option Text)}, allSome seenText (ks.map .tok) = some a → (∀ s ∈ a, ∃ t, s = some t ∧ Q t) →
    ∀ s ∈ ks.map SymArg.tok, ∃ t, seenText s = some (some t) ∧ Q t :=
  fun h hk => (allSome_known (t0 := []) h hk).2

theorem known_name {Q : Text → Prop} {s : Bool} {k : Option SymbolToken} {f : Option (Option Text)} {g : Option Nat} (hg : g.isSome = s) {t : Table} (ht : t.field g = .ok k)
    (h : fieldOf seenText s (k.map .tok) = some f) (hk : ∀ s, f = some s → ∃ t, s = some t ∧ Q t) :
    ∀ a, k.map SymArg.tok = some a → (∃ t, seenText a = some (some t) ∧ Q t) ∧ ∃ k, a = .tok k := by
  intro a ha
  cases k with
  | none => simp at ha
  | some k =>
    cases ha
    cases g with
    | none => simp [Table.field, pure, Except.pure] at ht
    | some n =>
      simp only [Option.isSome_some] at hg
      subst hg
      simp only [fieldOf, if_true, Option.map_some, Option.bind_some, seenText, Option.some.injEq] at h
      subst h
      obtain ⟨t, h1, h2⟩ := hk _ rfl
      exact ⟨⟨t, by simp [seenText, h1], h2⟩, k, rfl⟩

theorem scalarOf_denote {ty : IonType} {v : PyVal} {x : Scalar (Option Text)} (hn : nativeScalar ty v) (h : denote (fun k => some k.text) ty (some v) = some x) : scalarOf seenText ty v = some x := by
  unfold scalarOf
  by_cases hs : ty = .symbol
  · subst hs
    cases v <;> simp only [nativeScalar] at hn
    simp only [denote, Option.map_some, Option.some.injEq] at h
    subst h
    rfl
  · rw [if_neg hs]
    exact h

/-- The events of values that a format can express. -/
theorem fine_events {P : Scalar (Option Text) → Prop} {Q : Text → Prop} {s : Bool} {items : List (Spec.Node Nat)} (hf : Formed s items) : ∀ {t : Table} {texts : List Val},
    items.map (Node.map t.text) = texts.map (Node.map .ok) → Node.HoldsAll P Q texts → ∀ (d : Nat),
    ∃ ies, allSome seenEvent (eventsList t d items) = some ies ∧ ∀ e ∈ ies, KnownEvent P Q e := by
  induction hf with
  | nil s => intro t texts h _ d; exact ⟨[], rfl, by simp⟩
  | scalar s f a x ns hfs hx _ ih =>
    intro t texts h hh d
    cases texts with
    | nil => simp at h
    | cons y texts =>
      simp only [List.map_cons, List.cons.injEq] at h
      obtain ⟨h1, h2⟩ := h
      obtain ⟨hy, hh⟩ := hh
      cases y with
      | cont => simp [Node.map] at h1
      | scalar f' a' y =>
        obtain ⟨y1, y2, y3, y4⟩ := hy
        simp only [Node.map, Node.scalar.injEq] at h1
        obtain ⟨hfield, hann, hval⟩ := h1
        obtain ⟨k, hk1, hk2⟩ := seen_field hfs hfield
        obtain ⟨ks, hks1, hks2⟩ := findAll_of_text hann
        obtain ⟨v, hv1, hv2⟩ := seen_scalar hx hval
        obtain ⟨ies, i1, i2⟩ := ih h2 hh d
        have e1 : allSome seenEvent [(Node.scalar f a x).seen t d] = some
            [{ eventType := .scalar, ionType := some x.ty, value := .ok v, fieldName := k.map .tok, annotations := ks.map .tok, depth := some (d : Int) }] := by
          simp only [allSome, Node.seen, seenEvent, hk1, hks1, hv1]
        have e3 := allSome_append e1 i1
        rw [show [(Node.scalar f a x).seen t d] ++ eventsList t d ns = eventsList t d (.scalar f a x :: ns) from by simp [eventsList, Node.events]] at e3
        refine ⟨_, e3, ?_⟩
        intro e he
        rcases List.mem_append.1 he with he | he
        · simp only [List.mem_singleton] at he
          subst he
          refine ⟨known_name hfs hk1 hk2 y1, known_list hks2 y2, x.ty, rfl, ?_⟩
          cases v with
          | none => exact .inl rfl
          | some v =>
            have hn : nativeScalar x.ty v := by
              cases x <;> simp only [Table.value, pyValue, pure, Except.pure, Except.ok.injEq, Option.some.injEq, reduceCtorEq] at hv1
              case symbol n =>
                cases hf : t.find n with
                | error => simp [hf, bind, Except.bind] at hv1
                | ok k => simp [hf, bind, Except.bind] at hv1; subst hv1; trivial
              case timestamp tv =>
                subst hv1
                obtain ⟨p, hp⟩ := hx tv rfl
                simp only [nativeScalar, Scalar.ty]
                rw [timeValue_normal hp]
              all_goals (subst hv1; trivial)
            exact .inr ⟨rfl, v, rfl, hn, y, scalarOf_denote hn hv2, y3, y4⟩
        · exact i2 e he
  | cont s f a ty items ns hfs _ _ ih1 ih2 =>
    intro t texts h hh d
    cases texts with
    | nil => simp at h
    | cons y texts =>
      simp only [List.map_cons, List.cons.injEq] at h
      obtain ⟨h1, h2⟩ := h
      obtain ⟨hy, hh⟩ := hh
      cases y with
      | scalar => simp [Node.map] at h1
      | cont f' a' ty' items' =>
        obtain ⟨y1, y2, y3⟩ := hy
        simp only [Node.map, Node.cont.injEq, mapAll_eq] at h1
        obtain ⟨hfield, hann, rfl, hit⟩ := h1
        obtain ⟨k, hk1, hk2⟩ := seen_field hfs hfield
        obtain ⟨ks, hks1, hks2⟩ := findAll_of_text hann
        obtain ⟨ies1, i1, i2⟩ := ih1 hit y3 (d + 1)
        obtain ⟨ies2, j1, j2⟩ := ih2 h2 hh d
        have e1 : allSome seenEvent [(Node.cont f a ty items).seen t d] = some
            [{ eventType := .containerStart, ionType := some ty.ty, value := .ok none, fieldName := k.map .tok, annotations := ks.map .tok, depth := some (d : Int) }] := by
          simp only [allSome, Node.seen, seenEvent, hk1, hks1]
        have e2 : allSome seenEvent [endSeen d ty] = some
            [{ eventType := .containerEnd, ionType := some ty.ty, value := .ok none, fieldName := none, annotations := [], depth := some (d : Int) }] := rfl
        have e3 := allSome_append e1 (allSome_append (allSome_append i1 e2) j1)
        rw [show [(Node.cont f a ty items).seen t d] ++ (eventsList t (d + 1) items ++ [endSeen d ty] ++ eventsList t d ns) =
          eventsList t d (.cont f a ty items :: ns) from by simp [eventsList, Node.events]] at e3
        refine ⟨_, e3, ?_⟩
        intro e he
        simp only [List.mem_append, List.mem_singleton] at he
        rcases he with rfl | (he | rfl) | he
        · exact ⟨known_name hfs hk1 hk2 y1, known_list hks2 y2, ty.ty, rfl, .inl rfl⟩
        · exact i2 e he
        · exact ⟨by simp, by simp, ty.ty, rfl, .inl rfl⟩
        · exact j2 e he

/-- The events of the values of a user, with the tables in force. -/
theorem user_events {P : Scalar (Option Text) → Prop} {Q : Text → Prop} : ∀ {vs : List (Table × Spec.Node Nat)}, (∀ v ∈ vs, Formed false [v.2]) → ∀ {values : List Val},
    List.Forall₂ (fun v m => v.2.map v.1.text = m.map .ok) vs values → Node.HoldsAll P Q values → ∀ cur,
    ∃ ies, allSome seenEvent (vs.flatMap fun v => v.2.events v.1 0) = some ies ∧ (∀ e ∈ ies, KnownEvent P Q e) ∧
      (Tree.mk cur []).run seenText (fun k => some k.text) ies = some ⟨cur ++ values, []⟩ := by
  intro vs
  induction vs with
  | nil => intro _ values h _ cur; cases h; exact ⟨[], rfl, by simp, by simp [Tree.run]⟩
  | cons v vs ih =>
    intro hf values h hh cur
    cases h with
    | @cons _ m _ values h1 h2 =>
      obtain ⟨hm, hh⟩ := hh
      obtain ⟨ies1, i1, i2⟩ := fine_events (P := P) (Q := Q) (hf v (by simp)) (t := v.1) (texts := [m]) (by simp [h1]) ⟨hm, trivial⟩ 0
      obtain ⟨ies1', k1, k2⟩ := seen_values (hf v (by simp)) (t := v.1) (texts := [m]) (by simp [h1]) 0 cur [] rfl
      rw [i1] at k1
      cases k1
      obtain ⟨ies2, j1, j2, j3⟩ := ih (fun w hw => hf w (by simp [hw])) h2 hh (cur ++ [m])
      refine ⟨ies1 ++ ies2, ?_, ?_, ?_⟩
      · rw [List.flatMap_cons]
        refine allSome_append ?_ j1
        simpa [eventsList] using i1
      · intro e he
        exact (List.mem_append.1 he).elim (i2 e) (j2 e)
      · rw [Spec.run_append, k2]
        simpa using j3

/-- Reading a binary document with `NEXT` to its end returns `es` and then the end of the stream; as arguments of a writer, these are `ies`. -/
def EventsOf (catalog : Catalog) (doc : Bytes) (ies : List IonEvent) : Prop :=
  ∃ es : List Event, (∀ cs, Chunks cs doc → ManagedReader.pulls RawReader.send (ManagedReader.init catalog) cs (List.replicate (es.length + 1) .next) =
    some ((es ++ [streamEndSeen]).map .ok)) ∧ allSome seenEvent es = some ies

theorem document_events (doc : Bytes) (segs : List (List (Spec.Node Nat))) (hs : IsStream doc segs)
    (hr : ∀ items ∈ segs, Spec.AllScalars RawReader.Readable items) (catalog : Catalog)
    (hcat : Catalog.Registered catalog) (hp : Plain catalog systemTable (tops segs)) (vs : List (Table × Spec.Node Nat))
    (hu : userValues catalog systemTable (tops segs) = .ok vs) (values : List Val)
    (hv : List.Forall₂ (fun v m => v.2.map v.1.text = m.map .ok) vs values) {P : Scalar (Option Text) → Prop} {Q : Text → Prop} (hh : Node.HoldsAll P Q values) :
    ∃ ies, EventsOf catalog doc ies ∧ (∀ e ∈ ies, KnownEvent P Q e) ∧ valuesOf seenText (fun k => some k.text) ies = some values := by
  obtain ⟨ies, h1, h2, h3⟩ := user_events (P := P) (Q := Q) (fun v hv => user_formed (fun n => Formed false [n]) (fun items hi => formed_mem (stream_formed hs items hi)) hu v hv) hv hh []
  refine ⟨ies, ⟨_, fun cs hc => ManagedReader.C20_all_user_values_of_plain_documents doc segs hs hr cs hc catalog hcat hp vs hu, h1⟩, h2, ?_⟩
  unfold valuesOf
  rw [show (Tree.empty : Spec.Tree (Option Text)) = ⟨[], []⟩ from rfl, h3]
  rfl

/-! ## C73 -/

/-- **C73** (binary to text).  Of every well-formed binary document whose symbols are defined and whose values text can express: the
events that a reader returns, sent to a text writer, compact or pretty-printed, and then a flush, are written without exception, and
`load` of the output returns objects that mean the values of the document. -/
theorem C73_binary_to_text_partial (F : FloatText) (hF : TextSpec.Faithful F) (doc : Bytes) (segs : List (List (Spec.Node Nat))) (hs : IsStream doc segs)
    (hr : ∀ items ∈ segs, Spec.AllScalars RawReader.Readable items) (catalog : Catalog)
    (hcat : Catalog.Registered catalog) (hp : Plain catalog systemTable (tops segs)) (vs : List (Table × Spec.Node Nat))
    (hu : userValues catalog systemTable (tops segs) = .ok vs) (values : List Val)
    (hv : List.Forall₂ (fun v m => v.2.map v.1.text = m.map .ok) vs values) (ht : InText values) (indent : Option Text)
    (hi : ∀ t, indent = some t → TextSpec.IsBlank t) :
    ∃ ies, EventsOf catalog doc ies ∧ ∃ t s, TextWriter.runText F indent {} (ies ++ [ION_STREAM_END_EVENT]) = (t, .ok s) ∧
      ∃ objs, Mean objs values ∧ objs.length = values.length ∧ LoadsAs F [] t objs := by
  obtain ⟨ies, h1, h2, h3⟩ := document_events doc segs hs hr catalog hcat hp vs hu values hv ht.1
  obtain ⟨items, i1, i2⟩ := text_values (fine_given (t0 := systemTable) h2 h3)
  have hden : TextSpec.Denotes [] systemTable (items.map some) values := denotes_values i2 (users_not_system _ hu hv)
  have hgv : TextSpec.Given (ies ++ [ION_STREAM_END_EVENT]) (items.map some ++ []) := .values _ _ _ _ i1 (fun e he => fine_safe (h2 e he)) (not_marker i2 ht.2) (.flush _ _ .nil)
  rw [List.append_nil] at hgv
  obtain ⟨ws, b, w, k1, k2, k3⟩ := TextWriter.given_doc hF hi hgv
  have ha : Ascii (ws ++ b) := by
    have := TextWriter.ascii_run hF (ind := indent) (fun t ht => blank_ascii (hi t ht)) (ies ++ [ION_STREAM_END_EVENT]) {}
    rw [k1] at this
    exact this
  exact ⟨ies, h1, _, _, k1, C48_load_text_document_partial F ws b _ (TextWriter.blank_trivia k2) k3 (fun c hc => by have := ha c hc; omega) [] ManagedReader.registered_empty values hden⟩

/-- **C73** (binary to binary).  The same for a binary writer, with or without shared tables to import.  The events that a reader
returns for the output describe the values of the document, whatever the symbol tables and IDs of the source were. -/
theorem C73_binary_to_binary_partial (doc : Bytes) (segs : List (List (Spec.Node Nat))) (hs : IsStream doc segs)
    (hr : ∀ items ∈ segs, Spec.AllScalars RawReader.Readable items) (catalog : Catalog)
    (hcat : Catalog.Registered catalog) (hp : Plain catalog systemTable (tops segs)) (vs : List (Table × Spec.Node Nat))
    (hu : userValues catalog systemTable (tops segs) = .ok vs) (values : List Val)
    (hv : List.Forall₂ (fun v m => v.2.map v.1.text = m.map .ok) vs values) (hb : InBinary values)
    (imports : Option (List SymbolTable)) (history : List SymbolTable)
    (hist : ∀ t ∈ history, Catalog.Spec.Shared t) (catalog' : Catalog) (hc : Catalog.Spec.registerAll history = .ok catalog')
    (hi : ∀ t ∈ imports.getD [], Available history t) (T0 : SymbolTable) (h0 : SymbolTable.new .local [] (imports := imports) = .ok T0) :
    ∃ ies, EventsOf catalog doc ies ∧ ∃ chunks, runEvents (step imports) init (ies ++ [ION_STREAM_END_EVENT]) = (chunks, .ok init) ∧
      ∀ cs, Chunks cs chunks.flatten → ∃ es : List Event,
        ManagedReader.pulls RawReader.send (ManagedReader.init catalog') cs (List.replicate (es.length + 1) .next) =
          some ((es ++ [streamEndSeen]).map .ok) ∧ valuesSeen es = some values := by
  obtain ⟨ies, h1, h2, h3⟩ := document_events doc segs hs hr catalog hcat hp vs hu values hv hb
  have hret : Returns T0.contents T0.symbols.length ies := fine_returns h2 h3 (users_not_system _ hu hv)
  obtain ⟨chunks, k1, k2⟩ := C15_binary_round_trip imports history hist catalog' hc hi T0 h0 [⟨0, ies⟩] (fun b hb => by
    simp only [List.mem_singleton] at hb
    subst hb
    exact hret)
  refine ⟨ies, h1, chunks, by simpa [Batch.events] using k1, fun cs hcs => ?_⟩
  obtain ⟨es, l1, l2, _⟩ := k2 cs hcs
  refine ⟨es, l1, ?_⟩
  rw [l2]
  simpa using fine_given h2 h3

/-! ### The hypotheses can be met -/

/-- The sample document of C20: a symbol table that declares `a`, then the symbol with its ID; no imports for the writer. -/
example : (∃ vs, userValues [] systemTable (tops [ManagedReader.sampleItems]) = .ok vs ∧
      List.Forall₂ (fun v m => v.2.map v.1.text = m.map .ok) vs ([.scalar none [] (.symbol (some [97]))] : List Val)) ∧
    IsStream ([0xE0, 0x01, 0x00, 0xEA] ++ ManagedReader.sampleBytes) [ManagedReader.sampleItems] ∧
    (∀ items ∈ [ManagedReader.sampleItems], Spec.AllScalars RawReader.Readable items) ∧ Plain [] systemTable (tops [ManagedReader.sampleItems]) ∧
    InBinary [.scalar none [] (.symbol (some [97]))] ∧ InText [.scalar none [] (.symbol (some [97]))] := by
  have hu : TextSpec.IsUnicode [97] := by
    intro c hc
    simp only [List.mem_singleton] at hc
    subst hc
    simp [TextSpec.IsScalarValue]
  have hs : ¬ TextSpec.IsSidText [97] := by
    rintro ⟨ds, h, _⟩
    cases h
  refine ⟨⟨_, ManagedReader.sample_values, .cons rfl .nil⟩, ManagedReader.sample_stream, ManagedReader.sample_readable, ManagedReader.sample_plain,
    ⟨⟨by simp, by simp, trivial, ?_⟩, trivial⟩, ⟨⟨by simp, by simp, trivial, ?_⟩, trivial⟩, ?_⟩
  · rintro s h; cases h; exact ⟨_, rfl, by simp [EncodableText]⟩
  · rintro s h; cases h; exact ⟨_, rfl, hu, hs⟩
  · intro n hn
    simp only [List.mem_singleton] at hn
    subst hn
    rintro ⟨a, b, h, _⟩
    cases h

/-! ### Symbols with unknown text -/

/-- `$ion_symbol_table::{symbols: [null.string, "a"]}` and the symbols with the IDs 11 and 10. -/
def unknownItems : List (Spec.Node Nat) :=
  [.cont none [3] .struct [.cont (some 7) [] .list [.scalar none [] (.null .string), .scalar none [] (.string [0x61])]],
   .scalar none [] (.symbol 11), .scalar none [] (.symbol 10)]

/-- Its encoding. -/
def unknownBytes : Bytes := [0xE8, 0x81, 0x83, 0xD5, 0x87, 0xB3, 0x8F, 0x81, 0x61, 0x71, 0x0B, 0x71, 0x0A]

theorem unknown_items : IsItems false unknownBytes unknownItems := by
  have h1 : IsItems false [0x8F, 0x81, 0x61] [.scalar none [] (.null .string), .scalar none [] (.string [0x61])] :=
    .scalar false [] [0x8F] [0x8F] [0x81, 0x61] none [] (.null .string) _ .none
      (.null .string 0x8F (by decide)) (.bare _)
      (.scalar false [] [0x81, 0x61] [0x81, 0x61] [] none [] (.string [0x61]) [] .none
        (.string _ [0x61] _ (.short 0x81 [0x61] (by decide) (by decide)) (by decide)) (.bare _) (.nil _))
  have h2 : IsItems true [0x87, 0xB3, 0x8F, 0x81, 0x61] [.cont (some 7) [] .list [.scalar none [] (.null .string), .scalar none [] (.string [0x61])]] :=
    .cont true [0x87] [0x8F, 0x81, 0x61] [0xB3, 0x8F, 0x81, 0x61] [0xB3, 0x8F, 0x81, 0x61] [] (some 7) [] .list _ [] false (.some _ 7 ⟨.last _ (by decide), by decide⟩) h1
      (by simp) (.list _ _ _ (.short 0xB3 [0x8F, 0x81, 0x61] (by decide) (by decide))) (.bare _) (.nil _)
  have h3 : IsItems false [0x71, 0x0B, 0x71, 0x0A] [.scalar none [] (.symbol 11), .scalar none [] (.symbol 10)] :=
    .scalar false [] [0x71, 0x0B] [0x71, 0x0B] [0x71, 0x0A] none [] (.symbol 11) _ .none
      (.symbol _ [0x0B] (.short 0x71 [0x0B] (by decide) (by decide))) (.bare _)
      (.scalar false [] [0x71, 0x0A] [0x71, 0x0A] [] none [] (.symbol 10) [] .none
        (.symbol _ [0x0A] (.short 0x71 [0x0A] (by decide) (by decide))) (.bare _) (.nil _))
  exact .cont false [] [0x87, 0xB3, 0x8F, 0x81, 0x61] [0xD5, 0x87, 0xB3, 0x8F, 0x81, 0x61] [0xE8, 0x81, 0x83, 0xD5, 0x87, 0xB3, 0x8F, 0x81, 0x61]
    [0x71, 0x0B, 0x71, 0x0A] none [3] .struct _ _ false .none h2 (by simp) (.struct _ _ _ (.short 0xD5 [0x87, 0xB3, 0x8F, 0x81, 0x61] (by decide) (by decide)))
    (.wrapper [3] [0x81] [0x83] _ _ (by simp) (.cons [0x83] [] 3 [] ⟨.last _ (by decide), by decide⟩ .nil) ⟨.last _ (by decide), by decide⟩
      (.short 0xE8 _ (by decide) (by decide))) h3

/-- The two symbols as a reader gives them to a writer: the first has its text, the second only the ID of the source. -/
def unknownEvents : List IonEvent :=
  [{ eventType := .scalar, ionType := some .symbol, value := .ok (some (.sym ⟨some [0x61], some 11, none⟩)), depth := some 0 },
   { eventType := .scalar, ionType := some .symbol, value := .ok (some (.sym ⟨none, some 10, none⟩)), depth := some 0 }]

/-- The symbol `a`, twice, given as text. -/
def sameTwice : List IonEvent :=
  [{ eventType := .scalar, ionType := some .symbol, value := .ok (some (.str [0x61])) },
   { eventType := .scalar, ionType := some .symbol, value := .ok (some (.str [0x61])) }]

/-- **C73** (negative).  A binary document with two symbols, `a` and one with unknown text.  If the events of a reader are sent to a
binary writer, the output is, octet by octet, what the writer makes of `a` twice: the ID of the unknown symbol, which means nothing
outside the source, is written as it is, and means `a` there. -/
theorem C73_unknown_symbol_becomes_another :
    EventsOf [] ([0xE0, 0x01, 0x00, 0xEA] ++ unknownBytes) unknownEvents ∧
    valuesOf seenText (fun k => some k.text) unknownEvents = some [.scalar none [] (.symbol (some [0x61])), .scalar none [] (.symbol none)] ∧
    valuesGiven systemTable sameTwice = some [.scalar none [] (.symbol (some [0x61])), .scalar none [] (.symbol (some [0x61]))] ∧
    (runEvents (step none) init (unknownEvents ++ [ION_STREAM_END_EVENT])).1 = (runEvents (step none) init (sameTwice ++ [ION_STREAM_END_EVENT])).1 ∧
    (runEvents (step none) init (unknownEvents ++ [ION_STREAM_END_EVENT])).1.flatten =
      [0xE0, 0x01, 0x00, 0xEA, 0xE8, 0x81, 0x83, 0xDE, 0x84, 0x87, 0xB2, 0x81, 0x61, 0x71, 0x0A, 0x71, 0x0A] := by
  refine ⟨⟨[⟨.scalar, some .symbol, .ok (some (.sym ⟨some [0x61], some 11, none⟩)), .ok none, .ok [], some 0⟩,
      ⟨.scalar, some .symbol, .ok (some (.sym ⟨none, some 10, none⟩)), .ok none, .ok [], some 0⟩], fun cs hc => ?_, rfl⟩, rfl, rfl, by decide +kernel, by decide +kernel⟩
  refine ManagedReader.C20_all_user_values_of_plain_documents _ [unknownItems] ?_ ?_ cs hc [] ManagedReader.registered_empty ?_
    [(systemTable ++ [(none, none), (some [0x61], none)], .scalar none [] (.symbol 11)), (systemTable ++ [(none, none), (some [0x61], none)], .scalar none [] (.symbol 10))] rfl
  · have := IsStream.segment unknownBytes [] unknownItems [] unknown_items .nil
    simpa using this
  · intro items h
    simp only [List.mem_singleton] at h
    subst h
    exact .cont _ _ _ _ _ (.cont _ _ _ _ _ (.scalar _ _ _ _ trivial (.scalar _ _ _ _ trivial .nil)) .nil) (.scalar _ _ _ _ trivial (.scalar _ _ _ _ trivial .nil))
  · refine ⟨?_, ?_⟩
    · intro f b as fields h _ m hm
      cases h
      simp only [List.mem_singleton] at hm
      subst hm
      intro _ n hn
      simp only [List.mem_cons, List.not_mem_nil, or_false] at hn
      rcases hn with rfl | rfl <;> exact ⟨_, _, _, rfl, rfl⟩
    · intro t' h
      refine ⟨?_, ?_⟩
      · intro f b as fields h; cases h
      · intro t'' h
        refine ⟨?_, ?_⟩
        · intro f b as fields h; cases h
        · intros; trivial

end Ion.Simple
