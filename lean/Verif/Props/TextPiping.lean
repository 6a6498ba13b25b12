import Verif.Props.Piping

set_option linter.unusedSimpArgs false
set_option linter.unusedVariables false

/-! # Property C73, continued: the events of a reader of text can be sent to a writer -/

namespace Ion.Simple
open Ion Ion.Spec Ion.Simple.Spec Ion.ManagedWriter
open Ion.ManagedReader (Event Context thunkEvent Means react)
open Ion.RawReader (Chunks)
open Ion.Text (Pieces units_bytes units_str flatMap_units piece_bound blank_ascii)
open Ion.TextWriter (Ascii)
open Ion.TextSpec (TSym symbolText scalarValue eventsOf eventsOfAll docEvents Denotes IsDoc)

/-! ## The events of text values -/

theorem text_scalar_seen {ctx : Context} {t : Table} (hm : Means ctx t) {d : Nat} {f : Option TSym} {a : List TSym} {x : Scalar TSym} {y : Scalar (Option Text)}
    (hx : ∀ t, x = .timestamp t → (∃ p, IsTimeValue t p) ∧ Scalars.FracOk t.frac) (hy : x.map (symbolText t) = y.map .ok) :
    ∃ v, ManagedReader.valueThunk ctx (textScalar d f a x) = .ok v ∧ denote (fun k => some k.text) x.ty v = some y ∧ ∀ w, v = some w → nativeScalar x.ty w := by
  cases x <;> cases y <;> simp only [Scalar.map, reduceCtorEq, Scalar.null.injEq, Scalar.bool.injEq, Scalar.int.injEq,
    Scalar.float.injEq, Scalar.decimal.injEq, Scalar.timestamp.injEq, Scalar.symbol.injEq, Scalar.string.injEq,
    Scalar.clob.injEq, Scalar.blob.injEq] at hy
  case symbol s z =>
    obtain ⟨k, hk1, rfl, hk3⟩ := findSym_of_text hy
    have : ctx.resolveValue (.sym s.token) = .ok k := by
      show ctx.resolve (.tok s.token) = _
      rw [resolve_sym hm, hk1]
    refine ⟨some (.sym k), by simp [ManagedReader.valueThunk, textScalar, scalarValue, Scalar.ty, this], by simp [denote, Scalar.ty], ?_⟩
    rintro w h; cases h; trivial
  case timestamp v w =>
    subst hy
    obtain ⟨⟨p, hp⟩, hf⟩ := hx v rfl
    refine ⟨some (.timestamp (.ts v)), by simp [ManagedReader.valueThunk, textScalar, scalarValue, Scalar.ty], by simp [denote, Scalar.ty, timeValue_normal hp], ?_⟩
    rintro w h; cases h
    simp only [nativeScalar, Scalar.ty]
    rw [timeValue_normal hp]
  case null ty ty' =>
    subst hy
    exact ⟨none, rfl, by simp [denote, Scalar.ty], by simp⟩
  all_goals
    subst hy
    refine ⟨_, rfl, by simp [denote, Scalar.ty], ?_⟩
    rintro w h; cases h; trivial

theorem text_known_name {Q : Text → Prop} {k : Option SymbolToken} {f : Option (Option Text)} (h : k.map (·.text) = f) (hk : ∀ s, f = some s → ∃ t, s = some t ∧ Q t) :
    ∀ a, k.map SymArg.tok = some a → (∃ t, seenText a = some (some t) ∧ Q t) ∧ ∃ k, a = .tok k := by
  intro a ha
  cases k with
  | none => simp at ha
  | some k =>
    cases ha
    obtain ⟨t, h1, h2⟩ := hk _ h.symm
    exact ⟨⟨t, by simp [seenText, h1], h2⟩, k, rfl⟩

theorem text_field {ctx : Context} {t : Table} (hm : Means ctx t) {s : Bool} {f : Option TSym} (hs : f.isSome = s) {x : Option (Option Text)} (h : f.map (symbolText t) = x.map .ok) :
    ∃ k : Option SymbolToken, ManagedReader.fieldThunk ctx (f.map fun s => .tok s.token) = .ok k ∧ k.map (·.text) = x ∧ fieldOf seenText s (k.map .tok) = some x := by
  obtain ⟨k, h1, h2⟩ := field_of_sym hm h
  refine ⟨k, h1, h2, ?_⟩
  subst h2
  cases f with
  | none =>
    simp only [Option.isSome_none] at hs
    subst hs
    simp only [Option.map_none, ManagedReader.fieldThunk, Except.ok.injEq] at h1
    subst h1
    rfl
  | some n =>
    simp only [Option.isSome_some] at hs
    subst hs
    cases k with
    | none => simp at h
    | some k => simp [fieldOf, seenText]

/-- The events of text values that a format can express, and the values that they describe. -/
theorem text_fine {P : Scalar (Option Text) → Prop} {Q : Text → Prop} {ctx : Context} {t : Table} (hm : Means ctx t) {s : Bool} {items : List (Spec.Node TSym)} (hf : Shaped s items) :
    ∀ {texts : List Val}, items.map (Node.map (symbolText t)) = texts.map (Node.map .ok) → Node.HoldsAll P Q texts →
    ∀ (d : Nat) (cur : List Val) (opens : List (OpenNode (Option Text))), (Tree.mk cur opens).inStruct = s →
    ∃ ies, allSome seenEvent ((eventsOfAll d items).map (thunkEvent ctx)) = some ies ∧ (∀ e ∈ ies, KnownEvent P Q e) ∧
      (Tree.mk cur opens).run seenText (fun k => some k.text) ies = some ⟨cur ++ texts, opens⟩ := by
  induction hf with
  | nil s =>
    intro texts h _ d cur opens _
    cases texts with
    | nil => exact ⟨[], rfl, by simp, by simp [Tree.run]⟩
    | cons => simp at h
  | scalar s f a x ns hfs hx _ ih =>
    intro texts h hh d cur opens hin
    cases texts with
    | nil => simp at h
    | cons y texts =>
      simp only [List.map_cons, List.cons.injEq] at h
      obtain ⟨h1, h2⟩ := h
      obtain ⟨hy, hh⟩ := hh
      cases y with
      | cont => simp [Node.map] at h1
      | scalar f' a' y =>
        obtain ⟨y1, y2, y3, y4⟩ := hy
        simp only [Node.map, Node.scalar.injEq] at h1
        obtain ⟨hfield, hann, hval⟩ := h1
        obtain ⟨k, hk1, hk2, hk3⟩ := text_field hm hfs hfield
        obtain ⟨ks, hks1, hks2⟩ := annotations_of_text hm hann
        obtain ⟨v, hv1, hv2, hv3⟩ := text_scalar_seen hm (d := d) (f := f) (a := a) hx hval
        obtain ⟨ies, i1, i2, i3⟩ := ih h2 hh d (cur ++ [.scalar f' a' y]) opens (by simpa [Tree.inStruct] using hin)
        have e1 : allSome seenEvent [thunkEvent ctx (textScalar d f a x)] = some
            [{ eventType := .scalar, ionType := some x.ty, value := .ok v, fieldName := k.map .tok, annotations := ks.map .tok, depth := some (d : Int) }] := by
          simp only [allSome, thunkEvent, seenEvent, hv1]
          simp only [textScalar, hk1, hks1]
        have e3 := allSome_append e1 i1
        rw [show [thunkEvent ctx (textScalar d f a x)] ++ (eventsOfAll d ns).map (thunkEvent ctx) = (eventsOfAll d (.scalar f a x :: ns)).map (thunkEvent ctx) from by
          simp [eventsOfAll, events_scalar]] at e3
        refine ⟨_, e3, ?_, ?_⟩
        · intro e he
          rcases List.mem_append.1 he with he | he
          · simp only [List.mem_singleton] at he
            subst he
            refine ⟨text_known_name hk2 y1, known_list hks2 y2, x.ty, rfl, ?_⟩
            cases v with
            | none => exact .inl rfl
            | some v =>
              have hn := hv3 v rfl
              exact .inr ⟨rfl, v, rfl, hn, y, scalarOf_denote hn hv2, y3, y4⟩
          · exact i2 e he
        · simp only [List.cons_append, List.nil_append]
          simp only [Tree.run, Tree.step, hin, hk3, hks2, hv2, Option.map_some, Option.bind_some]
          rw [i3]
          simp
  | cont s f a ty items ns hfs _ _ ih1 ih2 =>
    intro texts h hh d cur opens hin
    cases texts with
    | nil => simp at h
    | cons y texts =>
      simp only [List.map_cons, List.cons.injEq] at h
      obtain ⟨h1, h2⟩ := h
      obtain ⟨hy, hh⟩ := hh
      cases y with
      | scalar => simp [Node.map] at h1
      | cont f' a' ty' items' =>
        obtain ⟨y1, y2, y3⟩ := hy
        simp only [Node.map, Node.cont.injEq, mapAll_eq] at h1
        obtain ⟨hfield, hann, rfl, hit⟩ := h1
        obtain ⟨k, hk1, hk2, hk3⟩ := text_field hm hfs hfield
        obtain ⟨ks, hks1, hks2⟩ := annotations_of_text hm hann
        obtain ⟨ies1, i1, i2, i3⟩ := ih1 hit y3 (d + 1) [] (⟨f', a', ty, cur⟩ :: opens) (by simp [Tree.inStruct])
        obtain ⟨ies2, j1, j2, j3⟩ := ih2 h2 hh d (cur ++ [.cont f' a' ty items']) opens (by simpa [Tree.inStruct] using hin)
        have e1 : allSome seenEvent [thunkEvent ctx (textStart d f a ty)] = some
            [{ eventType := .containerStart, ionType := some ty.ty, value := .ok none, fieldName := k.map .tok, annotations := ks.map .tok, depth := some (d : Int) }] := by
          simp only [allSome, thunkEvent, seenEvent, textStart, hk1, hks1]
          rfl
        have e2 : allSome seenEvent [thunkEvent ctx (textEnd d ty)] = some
            [{ eventType := .containerEnd, ionType := some ty.ty, value := .ok none, fieldName := none, annotations := [], depth := some (d : Int) }] := rfl
        have e3 := allSome_append e1 (allSome_append (allSome_append i1 e2) j1)
        rw [show [thunkEvent ctx (textStart d f a ty)] ++ ((eventsOfAll (d + 1) items).map (thunkEvent ctx) ++ [thunkEvent ctx (textEnd d ty)] ++ (eventsOfAll d ns).map (thunkEvent ctx)) =
          (eventsOfAll d (.cont f a ty items :: ns)).map (thunkEvent ctx) from by simp [eventsOfAll, events_cont]] at e3
        refine ⟨_, e3, ?_, ?_⟩
        · intro e he
          simp only [List.mem_append, List.mem_singleton] at he
          rcases he with rfl | (he | rfl) | he
          · exact ⟨text_known_name hk2 y1, known_list hks2 y2, ty.ty, rfl, .inl rfl⟩
          · exact i2 e he
          · exact ⟨by simp, by simp, ty.ty, rfl, .inl rfl⟩
          · exact j2 e he
        · simp only [List.cons_append, List.nil_append, List.append_assoc]
          rw [Tree.run]
          simp only [Tree.step, hin, hk3, hks2, Option.bind_some, ctype_ty]
          rw [Spec.run_append, i3]
          simp only [Option.bind_some, List.nil_append]
          rw [Tree.run]
          simp only [Tree.step, Option.bind_some]
          rw [j3]
          simp

/-! ## Documents -/

theorem denotes_events {P : Scalar (Option Text) → Prop} {Q : Text → Prop} {catalog : Catalog} (hc : Catalog.Registered catalog) {t : Table}
    {items : List (Option (Spec.Node TSym))} {values : List Val} (h : Denotes catalog t items values) (hsh : ∀ n, some n ∈ items → Shaped false [n]) :
    Node.HoldsAll P Q values → ∀ {ctx : Context}, Means ctx t → ctx.catalog = catalog → ∀ cur, ∃ ies out ctx',
      filterEvents ctx none (docEvents items) = some (out, ctx', none) ∧ allSome seenEvent out = some ies ∧ (∀ e ∈ ies, KnownEvent P Q e) ∧
      (Tree.mk cur []).run seenText (fun k => some k.text) ies = some ⟨cur ++ values, []⟩ := by
  induction h with
  | nil t =>
    intro _ ctx _ _ cur
    exact ⟨[], [], ctx, rfl, rfl, by simp, by simp [Tree.run]⟩
  | marker t items values _ ih =>
    intro hh ctx _ hcat cur
    obtain ⟨ies, out, ctx', h2, h3⟩ := ih (fun n hn => hsh n (by simp [hn])) hh (ctx := { catalog := catalog }) (ManagedReader.means_system catalog) rfl cur
    refine ⟨ies, out, ctx', ?_, h3⟩
    have hr : react ctx none ION_VERSION_MARKER_EVENT = .ok (.ask .next { catalog := catalog } none) := by rw [← hcat]; rfl
    have : docEvents (none :: items) = ION_VERSION_MARKER_EVENT :: docEvents items := rfl
    rw [this, filter_ask hr, h2]
  | value t n v items values hn hs _ ih =>
    intro hh ctx hm hcat cur
    obtain ⟨hv, hh⟩ := hh
    obtain ⟨ies1, i1, i2, i3⟩ := text_fine (P := P) (Q := Q) hm (hsh n (by simp)) (texts := [v]) (by simp [hn]) ⟨hv, trivial⟩ 0 cur [] rfl
    obtain ⟨ies2, out, ctx', h2, j1, j2, j3⟩ := ih (fun n hn => hsh n (by simp [hn])) hh hm hcat (cur ++ [v])
    refine ⟨ies1 ++ ies2, (eventsOf 0 n).map (thunkEvent ctx) ++ out, ctx', ?_, ?_, ?_, ?_⟩
    · have : docEvents (some n :: items) = eventsOf 0 n ++ docEvents items := rfl
      rw [this, filter_user hm hn hs, h2]
      rfl
    · exact allSome_append (by simpa [eventsOfAll] using i1) j1
    · intro e he
      exact (List.mem_append.1 he).elim (i2 e) (j2 e)
    · rw [Spec.run_append, i3]
      simpa using j3
  | nop t n f items values hn _ ih =>
    intro hh ctx hm hcat cur
    obtain ⟨ies, out, ctx', h2, h3⟩ := ih (fun n hn => hsh n (by simp [hn])) hh hm hcat cur
    refine ⟨ies, out, ctx', ?_, h3⟩
    cases n with
    | cont => simp [Node.map] at hn
    | scalar g a x =>
      simp only [Node.map, Node.scalar.injEq, List.map_nil, List.map_eq_nil_iff] at hn
      obtain ⟨-, rfl, hx⟩ := hn
      cases x <;> simp [Scalar.map] at hx
      rename_i s0
      obtain ⟨k, hk, hkt, -⟩ := findSym_of_text hx
      have hrv : ctx.resolveValue (.sym s0.token) = .ok k := by
        show ctx.resolve (.tok s0.token) = _
        rw [resolve_sym hm, hk]
      have : docEvents (some (.scalar g [] (.symbol s0)) :: items) = textScalar 0 g [] (.symbol s0) :: docEvents items := by
        simp only [docEvents, List.flatMap_cons, events_scalar, List.singleton_append]
      rw [this, filter_ask (ctx' := ctx) (h' := none), h2]
      simp [react, ManagedReader.onUser, textScalar, ManagedReader.isTextMarker, Scalar.ty, scalarValue, hrv, hkt]
  | table t t' n f a fields items values hn ht _ ih =>
    intro hh ctx hm hcat cur
    subst hcat
    obtain ⟨ctx1, k1, k2, k3⟩ := filter_table hm hc hn ht
    obtain ⟨ies, out, ctx', h2, h3⟩ := ih (fun n hn => hsh n (by simp [hn])) hh k1 k2 cur
    refine ⟨ies, out, ctx', ?_, h3⟩
    have : docEvents (some n :: items) = eventsOf 0 n ++ docEvents items := rfl
    rw [this, k3, h2]

/-- The reader, fed with these chunks by the blocking reader, returns `es` and then the end of the stream. -/
def ReadsAll (F : FloatText) (units : Bytes → List Nat) (catalog : Catalog) (cs : List Bytes) (es : List Event) : Prop :=
  ∃ src, Delivers (ManagedReader.send (TextReader.send F units)) (.active (.live .fresh { catalog := catalog } none) cs) es src ∧
    nextEvent (ManagedReader.send (TextReader.send F units)) src = some (.ok streamEnd, .ended)

/-- Reading a text document to its end through the blocking reader, from a file in text mode or (if it is ASCII) in binary mode, whatever
the pieces `read` returns, gives `es` and then the end of the stream; as arguments of a writer, these are `ies`. -/
def TextEventsOf (F : FloatText) (catalog : Catalog) (doc : Text) (ies : List IonEvent) : Prop :=
  ∃ es : List Event, (∀ ps, Pieces ps doc → ReadsAll F TextReader.strUnits catalog (ps.map TextReader.strBytes) es) ∧
    (Ascii doc → ∀ cs, Chunks cs (Ion.Text.toBytes doc) → ReadsAll F TextReader.byteUnits catalog cs es) ∧ allSome seenEvent es = some ies

theorem reads_all {F : FloatText} {units : Bytes → List Nat} {catalog : Catalog} {t : List Nat} {es : List IonEvent} (ha : TextReader.Answers F {} t es none)
    {out : List Event} {ctx' : Context} (hf : filterEvents { catalog := catalog } none es = some (out, ctx', none))
    {cs : List Bytes} (hne : ∀ d ∈ cs, units d ≠ []) (ht : cs.flatMap units = t) : ReadsAll F units catalog cs out := by
  subst ht
  exact delivers_filtered (TextReader.reading_of_answers hne ha) hf

theorem text_document_events (F : FloatText) (ws bs : List Nat) (items : List (Option (Spec.Node TSym))) (hws : TextSpec.IsTrivia ws) (hdoc : IsDoc F bs items)
    (hc : ∀ c ∈ ws ++ bs, c ≤ 0x10FFFF) (catalog : Catalog) (hcat : Catalog.Registered catalog) (values : List Val)
    (hv : Denotes catalog systemTable items values) {P : Scalar (Option Text) → Prop} {Q : Text → Prop} (hh : Node.HoldsAll P Q values) :
    ∃ ies, TextEventsOf F catalog (ws ++ bs) ies ∧ (∀ e ∈ ies, KnownEvent P Q e) ∧ valuesOf seenText (fun k => some k.text) ies = some values := by
  have ha := TextReader.answers_of_events (TextReader.doc_events hws hdoc)
  obtain ⟨ies, out, ctx', h1, h2, h3, h4⟩ := denotes_events hcat hv (doc_shaped hdoc) hh (ManagedReader.means_system catalog) rfl []
  refine ⟨ies, ⟨out, ?_, ?_, h2⟩, h3, ?_⟩
  · intro qs hq
    have hu : ∀ p ∈ qs, TextReader.strUnits (TextReader.strBytes p) = p := fun p hp => units_str fun c hc' => by
      have := piece_bound hq hc p hp c hc'
      omega
    refine reads_all ha h1 ?_ ?_
    · intro d hd
      obtain ⟨p, hp, rfl⟩ := List.mem_map.1 hd
      rw [hu p hp]
      exact hq.2 p hp
    · rw [flatMap_units hu, hq.1]
  · intro hasc cs hcs
    refine reads_all ha h1 ?_ ?_
    · intro d hd h0
      exact hcs.2 d hd (List.map_eq_nil_iff.1 h0)
    · rw [flatMap_bytes, hcs.1, units_bytes]
      intro c hc'
      have := hasc c hc'
      omega
  · unfold valuesOf
    rw [show (Tree.empty : Spec.Tree (Option Text)) = ⟨[], []⟩ from rfl, h4]
    rfl

/-! ## C73 -/

/-- **C73** (text to text).  Of every text document whose symbols are known and whose values text can express: the events that a reader
returns, sent to a text writer, compact or pretty-printed, and then a flush, are written without exception, and `load` of the output
returns objects that mean the values of the document. -/
theorem C73_text_to_text_partial (F : FloatText) (hF : TextSpec.Faithful F) (ws bs : List Nat) (items : List (Option (Spec.Node TSym))) (hws : TextSpec.IsTrivia ws)
    (hdoc : IsDoc F bs items) (hc : ∀ c ∈ ws ++ bs, c ≤ 0x10FFFF) (catalog : Catalog) (hcat : Catalog.Registered catalog) (values : List Val)
    (hv : Denotes catalog systemTable items values) (ht : InText values) (indent : Option Text)
    (hi : ∀ t, indent = some t → TextSpec.IsBlank t) :
    ∃ ies, TextEventsOf F catalog (ws ++ bs) ies ∧ ∃ t s, TextWriter.runText F indent {} (ies ++ [ION_STREAM_END_EVENT]) = (t, .ok s) ∧
      ∃ objs, Mean objs values ∧ objs.length = values.length ∧ LoadsAs F [] t objs := by
  obtain ⟨ies, h1, h2, h3⟩ := text_document_events F ws bs items hws hdoc hc catalog hcat values hv ht.1
  obtain ⟨items, i1, i2⟩ := text_values (fine_given (t0 := systemTable) h2 h3)
  have hden : TextSpec.Denotes [] systemTable (items.map some) values := denotes_values i2 (denotes_user hv)
  have hgv : TextSpec.Given (ies ++ [ION_STREAM_END_EVENT]) (items.map some ++ []) := .values _ _ _ _ i1 (fun e he => fine_safe (h2 e he)) (not_marker i2 ht.2) (.flush _ _ .nil)
  rw [List.append_nil] at hgv
  obtain ⟨ws, b, w, k1, k2, k3⟩ := TextWriter.given_doc hF hi hgv
  have ha : Ascii (ws ++ b) := by
    have := TextWriter.ascii_run hF (ind := indent) (fun t ht => blank_ascii (hi t ht)) (ies ++ [ION_STREAM_END_EVENT]) {}
    rw [k1] at this
    exact this
  exact ⟨ies, h1, _, _, k1, C48_load_text_document_partial F ws b _ (TextWriter.blank_trivia k2) k3 (fun c hc => by have := ha c hc; omega) [] ManagedReader.registered_empty values hden⟩

/-- **C73** (text to binary).  The same for a binary writer, with or without shared tables to import.  The events that a reader returns
for the output describe the values of the document. -/
theorem C73_text_to_binary_partial (F : FloatText) (ws bs : List Nat) (items : List (Option (Spec.Node TSym))) (hws : TextSpec.IsTrivia ws)
    (hdoc : IsDoc F bs items) (hc : ∀ c ∈ ws ++ bs, c ≤ 0x10FFFF) (catalog : Catalog) (hcat : Catalog.Registered catalog) (values : List Val)
    (hv : Denotes catalog systemTable items values) (hb : InBinary values)
    (imports : Option (List SymbolTable)) (history : List SymbolTable)
    (hist : ∀ t ∈ history, Catalog.Spec.Shared t) (catalog' : Catalog) (hc' : Catalog.Spec.registerAll history = .ok catalog')
    (hi : ∀ t ∈ imports.getD [], Available history t) (T0 : SymbolTable) (h0 : SymbolTable.new .local [] (imports := imports) = .ok T0) :
    ∃ ies, TextEventsOf F catalog (ws ++ bs) ies ∧ ∃ chunks, runEvents (step imports) init (ies ++ [ION_STREAM_END_EVENT]) = (chunks, .ok init) ∧
      ∀ cs, Chunks cs chunks.flatten → ∃ es : List Event,
        ManagedReader.pulls RawReader.send (ManagedReader.init catalog') cs (List.replicate (es.length + 1) .next) =
          some ((es ++ [streamEndSeen]).map .ok) ∧ valuesSeen es = some values := by
  obtain ⟨ies, h1, h2, h3⟩ := text_document_events F ws bs items hws hdoc hc catalog hcat values hv hb
  have hret : Returns T0.contents T0.symbols.length ies := fine_returns h2 h3 (denotes_user hv)
  obtain ⟨chunks, k1, k2⟩ := C15_binary_round_trip imports history hist catalog' hc' hi T0 h0 [⟨0, ies⟩] (fun b hb => by
    simp only [List.mem_singleton] at hb
    subst hb
    exact hret)
  refine ⟨ies, h1, chunks, by simpa [Batch.events] using k1, fun cs hcs => ?_⟩
  obtain ⟨es, l1, l2, _⟩ := k2 cs hcs
  refine ⟨es, l1, ?_⟩
  rw [l2]
  simpa using fine_given h2 h3

/-! ### The hypotheses can be met -/

/-- The sample document of C48: `$ion_1_0`, a local symbol table that declares `b`, and the symbol with its ID. -/
example : (∃ ws bs, TextSpec.IsTrivia ws ∧ IsDoc Ion.Text.plainFloat bs sampleItems ∧ ∀ c ∈ ws ++ bs, c ≤ 0x10FFFF) ∧
    Denotes [] systemTable sampleItems [.scalar none [] (.symbol (some [98]))] ∧ TextSpec.Faithful Ion.Text.plainFloat ∧
    InBinary [.scalar none [] (.symbol (some [98]))] ∧ InText [.scalar none [] (.symbol (some [98]))] := by
  have hu : TextSpec.IsUnicode [98] := by
    intro c hc
    simp only [List.mem_singleton] at hc
    subst hc
    simp [TextSpec.IsScalarValue]
  have hs : ¬ TextSpec.IsSidText [98] := by
    rintro ⟨ds, h, _⟩
    cases h
  obtain ⟨⟨ws, bs, h1, h2, h3⟩, h4⟩ := sample_document
  refine ⟨⟨ws, bs, h1, h2, fun c hc => by have := h3 c hc; omega⟩, h4, Ion.Text.plainFloat_faithful, ⟨⟨by simp, by simp, trivial, ?_⟩, trivial⟩, ⟨⟨by simp, by simp, trivial, ?_⟩, trivial⟩, ?_⟩
  · rintro s h; cases h; exact ⟨_, rfl, by simp [EncodableText]⟩
  · rintro s h; cases h; exact ⟨_, rfl, hu, hs⟩
  · intro n hn
    simp only [List.mem_singleton] at hn
    subst hn
    rintro ⟨a, b, h, _⟩
    cases h

end Ion.Simple
