import Verif.RawWriterLemmas
import Verif.Props.Trampoline
set_option linter.unusedSimpArgs false
/-!
# Properties C09, C11, C28, C29: the raw binary writer and the writer protocol
-/
namespace Ion.Spec
open Ion

/-- The value of a scalar event (if any) is one that the scalar serializers preserve, see C08. -/
def RegularEvent (e : IonEvent) : Prop :=
  e.eventType = .scalar → ∀ v, e.value = .ok (some v) → RegularVal v

/-- The value of a scalar event (if any) can be encoded, see C05, C06, C08. -/
def EncodableEvent (e : IonEvent) : Prop :=
  e.eventType = .scalar → ∀ v, e.value = .ok (some v) → EncodableVal v

end Ion.Spec

namespace Ion.RawWriter
open Ion Ion.Fields Ion.Fields.Spec Ion.Scalars Ion.Scalars.Spec Ion.Spec Ion.BufferTree Ion.BufferTree.Spec

/-- Whether the innermost of the open containers is a struct. -/
def inStructOf : List (OpenNode Nat) → Bool
  | o :: _ => o.ty = .struct
  | [] => false

/-- The co-routine chain and the enclosing buffer contents represent the open containers. -/
inductive Opens : List Frame → List (List Bytes) → List (OpenNode Nat) → Prop
  | nil : Opens [] [] []
  | bare (fs enc os) (o : OpenNode Nat) (pc : List Bytes) (pb f : Bytes) : Opens fs enc os →
      pc.flatten = pb ++ f → IsItems (inStructOf os) pb o.before → IsField (inStructOf os) f o.field → o.ann = [] →
      Opens (⟨o.ty.ty, []⟩ :: fs) (pc :: enc) (o :: os)
  | ann (fs enc os) (o : OpenNode Nat) (pend : List SymArg) (pc : List Bytes) (pb f : Bytes) : Opens fs enc os →
      pc.flatten = pb ++ f → IsItems (inStructOf os) pb o.before → IsField (inStructOf os) f o.field →
      pend ≠ [] → allSome argSid pend = some o.ann →
      Opens (⟨o.ty.ty, pend⟩ :: fs) ([] :: pc :: enc) (o :: os)

/-- The writer state represents the document under construction. -/
structure Inv (s : State) (t : Tree Nat) : Prop where
  repr : ∃ d, Rel s.buffer d ∧ Opens s.frames d.enclosing t.opens ∧ IsItems (inStructOf t.opens) d.current.flatten t.cur

theorem inv_init : Inv init Tree.empty := ⟨Doc.empty, rel_empty, .nil, .nil _⟩

theorem inStruct_frames {fs enc os} (h : Opens fs enc os) :
    inStructOf os = true ↔ ∃ p fs', fs = ⟨.struct, p⟩ :: fs' := by
  cases h with
  | nil => simp [inStructOf]
  | bare fs enc os o pc pb f _ _ _ _ _ =>
    cases ho : o.ty <;> simp [inStructOf, ho, CType.ty]
  | ann fs enc os o pend pc pb f _ _ _ _ _ =>
    cases ho : o.ty <;> simp [inStructOf, ho, CType.ty]

/-! Buffer operations through `Rel`. -/

theorem rel_scalar {b : BufferTree} {d : Doc} (h : Rel b d) (v : Bytes) :
    Rel (b.addScalarValue v) { d with current := d.current ++ [v] } := by
  have := rel_step h (.scalar v)
  simp only [Doc.step] at this
  obtain ⟨b', hb, hr⟩ := this
  simp only [BufferTree.step, Except.ok.injEq] at hb
  rw [hb]; exact hr

theorem rel_start {b : BufferTree} {d : Doc} (h : Rel b d) : Rel b.startContainer ⟨[], d.current :: d.enclosing⟩ := by
  have := rel_step h .start
  simp only [Doc.step] at this
  obtain ⟨b', hb, hr⟩ := this
  simp only [BufferTree.step, Except.ok.injEq] at hb
  rw [hb]; exact hr

theorem rel_end {b : BufferTree} {c p : List Bytes} {rest : List (List Bytes)} (h : Rel b ⟨c, p :: rest⟩) (hd : Bytes) :
    ∃ b', b.endContainer hd = .ok b' ∧ Rel b' ⟨p ++ hd :: c, rest⟩ := by
  have := rel_step h (.end_ hd)
  simpa [Doc.step, BufferTree.step] using this

theorem rel_len {b : BufferTree} {d : Doc} (h : Rel b d) : b.currentLength = d.current.flatten.length := h.len

/-- Field name and start of the annotation wrapper. -/
theorem prologue_spec (s : State) (t : Tree Nat) (hinv : Inv s t) (e : IonEvent) (hb : e.eventType.beginsValue = true)
    (fld : Option Nat) (hf : fieldOf argSid t.inStruct e.fieldName = some fld) :
    ∃ b d pb f, prologue s e = .ok b ∧ Opens s.frames d.enclosing t.opens ∧ d.current.flatten = pb ++ f ∧
      IsItems (inStructOf t.opens) pb t.cur ∧ IsField (inStructOf t.opens) f fld ∧
      (e.annotations = [] → Rel b d) ∧ (e.annotations ≠ [] → Rel b ⟨[], d.current :: d.enclosing⟩) := by
  obtain ⟨d, hrel, hop, hit⟩ := hinv.repr
  have hin : t.inStruct = inStructOf t.opens := by
    unfold Tree.inStruct inStructOf; cases t.opens <;> rfl
  rw [hin] at hf
  have hfin : ∀ (b : BufferTree) (d : Doc), Rel b d →
      (e.annotations = [] → Rel (if e.eventType.beginsValue && !e.annotations.isEmpty then b.startContainer else b) d) ∧
      (e.annotations ≠ [] → Rel (if e.eventType.beginsValue && !e.annotations.isEmpty then b.startContainer else b)
        ⟨[], d.current :: d.enclosing⟩) := by
    intro b d hr
    refine ⟨fun ha => by simpa [hb, ha] using hr, fun ha => ?_⟩
    simpa [hb, ha] using rel_start hr
  by_cases hst : inStructOf t.opens = true
  · obtain ⟨p, fs', hfs⟩ := (inStruct_frames hop).1 hst
    rw [hst] at hf
    simp only [fieldOf, if_true, Option.map_eq_some_iff, Option.bind_eq_some_iff] at hf
    obtain ⟨n, ⟨fa, hfa, hn⟩, rfl⟩ := hf
    have hsid : sidOf fa = .ok n := by
      cases fa with
      | text _ => cases hn
      | tok tk => simp only [argSid] at hn; simp [sidOf, hn]
    refine ⟨_, { d with current := d.current ++ [toBytes (writeVarUInt n)] }, d.current.flatten,
      toBytes (writeVarUInt n), ?_, hop, by simp, hit, ?_, hfin _ _ (rel_scalar hrel _)⟩
    · simp only [prologue, hfs, hb, if_true, hfa, hsid, bind, Except.bind, pure, Except.pure]
    · rw [hst]; exact .some _ _ (varUInt_spec n)
  · have hst' : inStructOf t.opens = false := by simpa using hst
    rw [hst'] at hf
    simp only [fieldOf, Bool.false_eq_true, if_false, Option.some.injEq] at hf
    subst hf
    refine ⟨_, d, d.current.flatten, [], ?_, hop, by simp, hit, by rw [hst']; exact .none, hfin _ _ hrel⟩
    unfold prologue
    cases hfs : s.frames with
    | nil => simp [bind, Except.bind, pure, Except.pure]
    | cons fr fs =>
      obtain ⟨ty, p⟩ := fr
      have : ty ≠ .struct := by
        intro h; subst h
        exact hst ((inStruct_frames hop).2 ⟨p, fs, hfs⟩)
      cases ty <;> simp_all [bind, Except.bind, pure, Except.pure]

theorem allSome_ne_nil {as : List SymArg} {ns : List Nat} (h : allSome argSid as = some ns) : as = [] ↔ ns = [] := by
  cases as with
  | nil => simp [allSome] at h; simp [h]
  | cons a as =>
    simp only [allSome] at h
    split at h
    · simp only [Option.some.injEq] at h; subst h; simp
    · cases h

/-- A finished value, appended with its annotations. -/
theorem wrapUp_spec {b : BufferTree} {c p : List Bytes} {enc : List (List Bytes)} (as : List SymArg) (ns : List Nat)
    (hne : as ≠ []) (ha : allSome argSid as = some ns) (hr : Rel b ⟨c, p :: enc⟩) :
    ∃ b' p', wrapUp b as = .ok b' ∧ Rel b' ⟨p', enc⟩ ∧ ∃ v, p'.flatten = p.flatten ++ v ∧ Wrapped ns c.flatten v := by
  obtain ⟨hd, hhd, hw⟩ := annotationHeader_spec as ns ha hne c.flatten
  obtain ⟨b', hb', hr'⟩ := rel_end hr hd
  refine ⟨b', _, ?_, hr', hd ++ c.flatten, by simp, hw⟩
  have : as.isEmpty = false := by simpa using hne
  have hl := rel_len hr
  simp only at hl
  simp only [wrapUp, this, Bool.false_eq_true, if_false, hl, hhd, bind, Except.bind]
  exact hb'

theorem prologue_plain (s : State) (e : IonEvent) (h : e.eventType.beginsValue = false) :
    prologue s e = .ok s.buffer := by
  unfold prologue
  cases hf : s.frames with
  | nil => simp [h, bind, Except.bind, pure, Except.pure]
  | cons fr fs =>
    obtain ⟨ty, p⟩ := fr
    cases ty <;> simp [h, bind, Except.bind, pure, Except.pure]

/-- One event of a well-formed document: the writer accepts it exactly if its value can be encoded. -/
theorem handle_spec (s : State) (t t' : Tree Nat) (hinv : Inv s t) (e : IonEvent)
    (hs : t.step argSid (·.sid) e = some t') (hreg : RegularEvent e) :
    (EncodableEvent e → ∃ s', handle s e = .ok ([], .needsInput, s') ∧ Inv s' t') ∧
    (¬ EncodableEvent e → ∃ err, handle s e = .error err) := by
  unfold Tree.step at hs
  cases het : e.eventType with
  | incomplete => rw [het] at hs; cases hs
  | streamEnd => rw [het] at hs; cases hs
  | versionMarker => rw [het] at hs; cases hs
  | scalar =>
    rw [het] at hs
    simp only at hs
    split at hs
    · rename_i f a ty v hf ha hty hv
      simp only [Option.map_eq_some_iff] at hs
      obtain ⟨x, hx, rfl⟩ := hs
      obtain ⟨b, d, pb, fb, hpro, hop, hcur, hpb, hfb, hr0, hr1⟩ := prologue_spec s t hinv e (by rw [het]; rfl) f hf
      have hser : ((∃ bs, serializeScalar e = .ok bs) ↔ EncodableEvent e) ∧
          ∀ bs, serializeScalar e = .ok bs → IsScalar bs x := by
        cases v with
        | none =>
          simp only [denote, Option.some.injEq] at hx
          subst hx
          have : serializeScalar e = .ok (toBytes [nullByte ty]) := by simp [serializeScalar, hv, hty, bind, Except.bind]
          refine ⟨⟨fun _ _ w hw => by rw [hv] at hw; simp at hw, fun _ => ⟨_, this⟩⟩, ?_⟩
          intro bs hbs
          rw [this] at hbs
          simp only [Except.ok.injEq] at hbs
          subst hbs
          exact nullByte_spec ty
        | some w =>
          have hrw := hreg het w hv
          have e1 : serializeScalar e = (serializeValue ty w).map toBytes := by
            simp only [serializeScalar, hv, hty, bind, Except.bind]
            cases serializeValue ty w <;> rfl
          have henc : EncodableEvent e ↔ EncodableVal w :=
            ⟨fun h => h het w hv, fun h _ w' hw' => by rw [hv] at hw'; simp at hw'; subst hw'; exact h⟩
          rw [henc, ← serializeValue_accepts ty w x hx hrw, e1]
          constructor
          · cases serializeValue ty w <;> simp [Except.map]
          · intro bs hbs
            cases hsv : serializeValue ty w with
            | error err => rw [hsv] at hbs; simp [Except.map] at hbs
            | ok l =>
              rw [hsv] at hbs
              simp only [Except.map, Except.ok.injEq] at hbs
              subst hbs
              exact serializeValue_spec ty w x hx hrw l hsv
      constructor
      · intro henc
        obtain ⟨bs, hbs⟩ := hser.1.2 henc
        have hsc := hser.2 bs hbs
        by_cases hann : e.annotations = []
        · have hns : a = [] := (allSome_ne_nil ha).1 hann
          subst hns
          refine ⟨⟨b.addScalarValue bs, s.frames⟩, ?_, ⟨_, rel_scalar (hr0 hann) bs, hop, ?_⟩⟩
          · simp [handle, hpro, het, hbs, wrapUp, hann, bind, Except.bind, pure, Except.pure]
          · have := IsItems.scalar (inStructOf t.opens) fb bs bs [] f [] x [] hfb hsc (.bare _) (.nil _)
            have := hpb.append this
            simpa [hcur] using this
        · obtain ⟨b', p', hw, hr', v, hv', hwr⟩ := wrapUp_spec e.annotations a hann ha (rel_scalar (hr1 hann) bs)
          refine ⟨⟨b', s.frames⟩, ?_, ⟨_, hr', hop, ?_⟩⟩
          · simp [handle, hpro, het, hbs, hw, bind, Except.bind, pure, Except.pure]
          · simp only [List.nil_append, List.flatten_cons, List.flatten_nil, List.append_nil] at hwr
            have := IsItems.scalar (inStructOf t.opens) fb bs v [] f a x [] hfb hsc hwr (.nil _)
            have := hpb.append this
            simpa [hv', hcur] using this
      · intro henc
        have : ∃ err, serializeScalar e = .error err := by
          cases hbs : serializeScalar e with
          | error err => exact ⟨err, rfl⟩
          | ok bs => exact absurd (hser.1.1 ⟨bs, hbs⟩) henc
        obtain ⟨err, herr⟩ := this
        exact ⟨err, by simp [handle, hpro, het, herr, bind, Except.bind]⟩
    · cases hs
  | containerStart =>
    rw [het] at hs
    simp only at hs
    split at hs
    · rename_i f a ty hf ha hty
      simp only [Option.some.injEq] at hs
      subst hs
      simp only [Option.bind_eq_some_iff] at hty
      obtain ⟨it, hit, hct⟩ := hty
      have hity : it = ty.ty ∧ it.isContainer = true := by
        cases it <;> simp [ctype] at hct <;> subst hct <;> simp [CType.ty, IonType.isContainer]
      obtain ⟨b, d, pb, fb, hpro, hop, hcur, hpb, hfb, hr0, hr1⟩ := prologue_spec s t hinv e (by rw [het]; rfl) f hf
      refine ⟨fun _ => ?_, fun h => absurd (fun h' => by rw [het] at h'; cases h') h⟩
      refine ⟨_, by simp [handle, hpro, het, hit, hity.2, bind, Except.bind, pure, Except.pure]; rfl, ?_⟩
      by_cases hann : e.annotations = []
      · have hns : a = [] := (allSome_ne_nil ha).1 hann
        refine ⟨_, rel_start (hr0 hann), ?_, .nil _⟩
        simp only [hann, hity.1]
        exact .bare _ _ _ ⟨f, a, ty, t.cur⟩ _ pb fb hop hcur hpb hfb hns
      · refine ⟨_, rel_start (hr1 hann), ?_, .nil _⟩
        simp only [hity.1]
        exact .ann _ _ _ ⟨f, a, ty, t.cur⟩ _ _ pb fb hop hcur hpb hfb hann ha
    · cases hs
  | containerEnd =>
    rw [het] at hs
    simp only at hs
    split at hs
    · rename_i o os hos
      simp only [Option.some.injEq] at hs
      subst hs
      refine ⟨fun _ => ?_, fun h => absurd (fun h' => by rw [het] at h'; cases h') h⟩
      obtain ⟨d, hrel, hop, hit⟩ := hinv.repr
      have hpro := prologue_plain s e (by rw [het]; rfl)
      obtain ⟨cur, enc⟩ := d
      rw [hos] at hop hit
      simp only at hop hit
      have hlen := rel_len hrel
      simp only at hlen
      have hty : inStructOf (o :: os) = decide (o.ty = .struct) := rfl
      rw [hty] at hit
      have hfc := containerHeader_spec o.ty cur.flatten
      generalize hfr : s.frames = frs at hop
      cases hop with
      | bare fs enc os o pc pb f hop' hpc hpb hfb hann =>
        obtain ⟨b1, hb1, hr1⟩ := rel_end hrel (containerHeader o.ty.ty cur.flatten.length)
        refine ⟨⟨b1, fs⟩, ?_, ⟨_, hr1, hop', ?_⟩⟩
        · simp [handle, hpro, het, hfr, hlen, wrapUp, bind, Except.bind, pure, Except.pure, hb1] at hb1 ⊢
          simp [hb1]
        · have := IsItems.cont (inStructOf os) f cur.flatten _ _ [] o.field [] o.ty t.cur [] false hfb hit
            (by simp) hfc (.bare _) (.nil _)
          have := hpb.append this
          rw [hann]
          simpa [hpc] using this
      | ann fs enc os o pend pc pb f hop' hpc hpb hfb hne hann =>
        obtain ⟨b1, hb1, hr1⟩ := rel_end hrel (containerHeader o.ty.ty cur.flatten.length)
        obtain ⟨b2, p', hb2, hr2, v, hv, hw⟩ := wrapUp_spec pend o.ann hne hann hr1
        refine ⟨⟨b2, fs⟩, ?_, ⟨_, hr2, hop', ?_⟩⟩
        · simp [handle, hpro, het, hfr, hlen, bind, Except.bind, pure, Except.pure] at hb1 ⊢
          simp [hb1, hb2]
        · simp only [List.nil_append, List.flatten_cons] at hw
          have := IsItems.cont (inStructOf os) f cur.flatten _ v [] o.field o.ann o.ty t.cur [] false hfb hit
            (by simp) hfc hw (.nil _)
          have := hpb.append this
          simpa [hpc, hv] using this
    · cases hs

theorem run_spec (evs : List IonEvent) (s : State) (t t' : Tree Nat) (hinv : Inv s t)
    (hr : t.run argSid (·.sid) evs = some t') (hreg : ∀ e ∈ evs, RegularEvent e) :
    ((∀ e ∈ evs, EncodableEvent e) → ∃ s', runEvents step s evs = ([], .ok s') ∧ Inv s' t') ∧
    (¬ (∀ e ∈ evs, EncodableEvent e) → ∃ err, runEvents step s evs = ([], .error err)) := by
  induction evs generalizing s t with
  | nil =>
    simp only [Tree.run, Option.some.injEq] at hr
    subst hr
    exact ⟨fun _ => ⟨s, rfl, hinv⟩, fun h => absurd (by simp) h⟩
  | cons e evs ih =>
    simp only [Tree.run, Option.bind_eq_some_iff] at hr
    obtain ⟨t1, ht1, hr1⟩ := hr
    obtain ⟨hok, hbad⟩ := handle_spec s t t1 hinv e ht1 (hreg e (by simp))
    by_cases he : EncodableEvent e
    · obtain ⟨s1, hs1, hi1⟩ := hok he
      obtain ⟨h1, h2⟩ := ih s1 t1 hi1 hr1 (fun e' h' => hreg e' (by simp [h']))
      have hst : step s e = ([], .ok (.needsInput, s1)) := by simp [step, hs1]
      constructor
      · intro hall
        obtain ⟨s', hs', hi'⟩ := h1 (fun e' h' => hall e' (by simp [h']))
        exact ⟨s', by simp [runEvents, hst, hs'], hi'⟩
      · intro hall
        obtain ⟨err, herr⟩ := h2 (fun h => hall (by intro e' h'; rcases List.mem_cons.1 h' with rfl | h'; exact he; exact h e' h'))
        exact ⟨err, by simp [runEvents, hst, herr]⟩
    · obtain ⟨err, herr⟩ := hbad he
      refine ⟨fun hall => absurd (hall e (by simp)) he, fun _ => ⟨err, by simp [runEvents, step, herr]⟩⟩

theorem runEvents_append {S : Type} (step : S → IonEvent → WriterStep S) (s : S) (a b : List IonEvent) :
    runEvents step s (a ++ b) =
      match runEvents step s a with
      | (cs, .error err) => (cs, .error err)
      | (cs, .ok s') => (cs ++ (runEvents step s' b).1, (runEvents step s' b).2) := by
  induction a generalizing s with
  | nil => simp [runEvents]
  | cons e a ih =>
    simp only [List.cons_append, runEvents]
    cases hst : step s e with
    | mk cs r =>
      cases r with
      | error err => simp
      | ok p =>
        obtain ⟨w, s1⟩ := p
        simp only [ih]
        cases hr : runEvents step s1 a with
        | mk cs' r' => cases r' <;> simp

/-- **C11** For every sequence of events that describes complete values (in terms of symbol IDs) whose timestamps are
regular (C08), followed by `STREAM_END`: if every value can be encoded (text without surrogates, decimals within the
limits of the decimal context, timestamps within the years 1 to 9999 in UTC), then the raw binary writer accepts all
events, what it outputs is an Ion binary encoding of exactly these values, and it ends in its initial state, ready for
more; otherwise it raises an exception and outputs nothing. -/
theorem C11_raw_writer_encodes (evs : List IonEvent) (vs : List (Spec.Node Nat)) (h : rawValues evs = some vs)
    (hreg : ∀ e ∈ evs, RegularEvent e) :
    ((∀ e ∈ evs, EncodableEvent e) → ∃ chunks,
      runEvents step init (evs ++ [ION_STREAM_END_EVENT]) = (chunks, .ok init) ∧ IsItems false chunks.flatten vs) ∧
    (¬ (∀ e ∈ evs, EncodableEvent e) → ∃ err,
      runEvents step init (evs ++ [ION_STREAM_END_EVENT]) = ([], .error err)) := by
  unfold rawValues valuesOf at h
  split at h
  · rename_i vs' hrun
    simp only [Option.some.injEq] at h
    subst h
    obtain ⟨h1, h2⟩ := run_spec evs init Tree.empty _ inv_init hrun hreg
    constructor
    · intro hall
      obtain ⟨s', hs', ⟨d, hrel, hop, hit⟩⟩ := h1 hall
      obtain ⟨cur, enc⟩ := d
      simp only at hop hit
      generalize hfr : s'.frames = frs at hop
      cases hop
      have hdr : s'.buffer.drain = .ok (cur, BufferTree.empty) := by
        have hn : s'.buffer.containerNodes = [] := by
          have := hrel.nodes; simpa using this
        have hc := hrel.cur
        simp only [chunks] at hc
        simp only [drain, hn, List.isEmpty_nil, if_true, hc]
      refine ⟨cur, ?_, hit⟩
      rw [runEvents_append, hs']
      have hp := prologue_plain s' ION_STREAM_END_EVENT rfl
      have : handle s' ION_STREAM_END_EVENT = .ok (cur, .complete, init) := by
        unfold handle
        rw [hp]
        simp only [bind, Except.bind, pure, Except.pure, ION_STREAM_END_EVENT, hfr, hdr, List.isEmpty_nil, if_true]
        rfl
      simp [runEvents, step, this]
    · intro hall
      obtain ⟨err, herr⟩ := h2 hall
      exact ⟨err, by rw [runEvents_append, herr]⟩
  · cases h

/-- **C11** (several flushes) The writer can be flushed any number of times: the output is the concatenation of the
encodings of the batches. -/
theorem C11_raw_writer_flushes (batches : List (List IonEvent × List (Spec.Node Nat)))
    (h : ∀ b ∈ batches, rawValues b.1 = some b.2 ∧ ∀ e ∈ b.1, RegularEvent e ∧ EncodableEvent e) :
    ∃ chunks, runEvents step init (batches.flatMap fun b => b.1 ++ [ION_STREAM_END_EVENT]) = (chunks, .ok init) ∧
      IsItems false chunks.flatten (batches.flatMap Prod.snd) := by
  induction batches with
  | nil => exact ⟨[], rfl, .nil _⟩
  | cons b batches ih =>
    obtain ⟨cs, hcs, hits⟩ := ih (fun b' h' => h b' (by simp [h']))
    obtain ⟨hv, he⟩ := h b (by simp)
    obtain ⟨c, hc, hit⟩ := (C11_raw_writer_encodes b.1 b.2 hv (fun e h' => (he e h').1)).1 (fun e h' => (he e h').2)
    refine ⟨c ++ cs, ?_, by simpa using hit.append hits⟩
    rw [List.flatMap_cons, runEvents_append, hc]
    simp only [hcs]

/-- The events of `$4::{$5: [1, "ab"]}` and a second top-level value. -/
def sampleEvents : List IonEvent :=
  [ { eventType := .containerStart, ionType := some .struct, annotations := [.tok { text := none, sid := some 4, location := none }] },
    { eventType := .containerStart, ionType := some .list, fieldName := some (.tok { text := none, sid := some 5, location := none }) },
    { eventType := .scalar, ionType := some .int, value := .ok (some (.int 1)) },
    { eventType := .scalar, ionType := some .string, value := .ok (some (.str [97, 98])) },
    { eventType := .containerEnd }, { eventType := .containerEnd },
    { eventType := .scalar, ionType := some .null, value := .ok none } ]

/-- Non-vacuity of C11. -/
example : ∃ vs, rawValues sampleEvents = some vs ∧ vs.length = 2 ∧
    ∀ e ∈ sampleEvents, RegularEvent e ∧ EncodableEvent e := by
  refine ⟨_, rfl, rfl, ?_⟩
  simp [sampleEvents, RegularEvent, EncodableEvent, RegularVal, EncodableVal]

/-! ## C09 -/

/-- `Sized s bs`: `bs` is a sequence of values (each with a VarUInt field name in front if `s`), in which every header
declares exactly the number of bytes of its content and the contents of lists, s-expressions, structs and annotation
wrappers are again of this form. -/
inductive Sized : Bool → Bytes → Prop
  | nil (s) : Sized s []
  | leaf (s) (f bs body rest : Bytes) (fld : Option Nat) (tid : Nat) : IsField s f fld → tid ≤ 10 → Framed tid bs body →
      Sized s rest → Sized s (f ++ bs ++ rest)
  | one (s) (f : Bytes) (h : UInt8) (rest : Bytes) (fld : Option Nat) : IsField s f fld → (h.toNat / 16 = 1 ∨ h.toNat % 16 = 15) →
      Sized s rest → Sized s (f ++ [h] ++ rest)
  | list (s) (f bs body rest : Bytes) (fld : Option Nat) (tid : Nat) : IsField s f fld → (tid = 11 ∨ tid = 12) →
      Framed tid bs body → Sized false body → Sized s rest → Sized s (f ++ bs ++ rest)
  | struct (s) (f bs body rest : Bytes) (fld : Option Nat) : IsField s f fld → Framed 13 bs body → Sized true body →
      Sized s rest → Sized s (f ++ bs ++ rest)
  | ordered (s) (f len body rest : Bytes) (fld : Option Nat) : IsField s f fld → IsVarUInt len body.length → Sized true body →
      Sized s rest → Sized s (f ++ (0xD1 :: (len ++ body)) ++ rest)
  | annotation (s) (f bs len sids inner rest : Bytes) (fld : Option Nat) : IsField s f fld →
      IsVarUInt len sids.length → Framed 14 bs (len ++ sids ++ inner) → Sized false inner → Sized s rest →
      Sized s (f ++ bs ++ rest)

theorem sized_scalar {inner : Bytes} {x : Scalar Nat} (h : IsScalar inner x) (s : Bool) (f rest : Bytes)
    (fld : Option Nat) (hf : IsField s f fld) (hr : Sized s rest) : Sized s (f ++ inner ++ rest) := by
  cases h with
  | null ty h hh =>
    refine .one s f h rest fld hf (.inr ?_) hr
    rcases hh with hh | ⟨-, hh⟩ <;> omega
  | bool b => exact .one s f _ rest fld hf (.inl (by cases b <;> decide)) hr
  | int bs body neg hb _ => cases neg <;> exact .leaf s f _ _ rest fld _ hf (by decide) hb hr
  | float0 => exact .leaf s f _ [] rest fld 4 hf (by decide) (.short _ _ (by simp) (by decide)) hr
  | float4 body hb => exact .leaf s f _ body rest fld 4 hf (by decide) (.short _ _ (by omega) (by rw [hb]; decide)) hr
  | float8 body hb => exact .leaf s f _ body rest fld 4 hf (by decide) (.short _ _ (by omega) (by rw [hb]; decide)) hr
  | decimal0 => exact .leaf s f _ [] rest fld 5 hf (by decide) (.short _ _ (by simp) (by decide)) hr
  | decimal bs body d hb _ _ => exact .leaf s f _ _ rest fld 5 hf (by decide) hb hr
  | timestamp bs body t hb _ => exact .leaf s f _ _ rest fld 6 hf (by decide) hb hr
  | symbol bs body hb => exact .leaf s f _ _ rest fld 7 hf (by decide) hb hr
  | string bs body t hb _ => exact .leaf s f _ _ rest fld 8 hf (by decide) hb hr
  | clob bs body hb => exact .leaf s f _ _ rest fld 9 hf (by decide) hb hr
  | blob bs body hb => exact .leaf s f _ _ rest fld 10 hf (by decide) hb hr

theorem sized_wrapped {ann : List Nat} {inner v : Bytes} (hw : Wrapped ann inner v)
    (h : ∀ s f fld rest, IsField s f fld → Sized s rest → Sized s (f ++ inner ++ rest)) (s : Bool) (f rest : Bytes)
    (fld : Option Nat) (hf : IsField s f fld) (hr : Sized s rest) : Sized s (f ++ v ++ rest) := by
  cases hw with
  | bare => exact h s f fld rest hf hr
  | wrapper ann len sids inner bs _ _ hl hfr =>
    refine .annotation s f v len sids inner rest fld hf hl hfr ?_ hr
    simpa using h false [] none [] .none (.nil _)

theorem sized_items {s : Bool} {bs : Bytes} {items : List (Spec.Node Nat)} (h : IsItems s bs items) : Sized s bs := by
  induction h with
  | nil s => exact .nil s
  | pad s f p body rest items hf hp _ ih =>
    cases s with
    | false =>
      simp only [IsPadField, Bool.false_eq_true, if_false] at hf
      subst hf
      exact .leaf false [] _ _ rest none 0 .none (by decide) hp ih
    | true =>
      simp only [IsPadField, if_true] at hf
      exact .leaf true f _ _ rest (some 0) 0 (.some _ _ hf) (by decide) hp ih
  | scalar s f inner v rest field ann x items hf hx hw _ ih =>
    exact sized_wrapped hw (fun s f fld rest hf hr => sized_scalar hx s f rest fld hf hr) s f rest field hf ih
  | cont s f body inner v rest field ann ty ch items o hf _ _ hfc hw _ ihb ih =>
    refine sized_wrapped hw ?_ s f rest field hf ih
    intro s f fld rest hf hr
    cases hfc with
    | list bs body o hb => exact .list s f _ _ rest fld 11 hf (.inl rfl) hb (by simpa using ihb) hr
    | sexp bs body o hb => exact .list s f _ _ rest fld 12 hf (.inr rfl) hb (by simpa using ihb) hr
    | struct bs body o hb => exact .struct s f _ _ rest fld hf hb (by simpa using ihb) hr
    | ordered len body _ hl => exact .ordered s f _ _ rest fld hf hl (by simpa using ihb) hr

/-- **C09** In the output of the raw binary writer, for every document of any depth, every header declares exactly the
number of bytes of its content: of scalars, of containers, of annotation wrappers and of the list of annotations. -/
theorem C09_lengths_exact (evs : List IonEvent) (vs : List (Spec.Node Nat)) (h : rawValues evs = some vs)
    (hreg : ∀ e ∈ evs, RegularEvent e ∧ EncodableEvent e) :
    ∃ chunks, runEvents step init (evs ++ [ION_STREAM_END_EVENT]) = (chunks, .ok init) ∧ Sized false chunks.flatten := by
  obtain ⟨c, hc, hi⟩ := (C11_raw_writer_encodes evs vs h fun e he => (hreg e he).1).1 fun e he => (hreg e he).2
  exact ⟨c, hc, sized_items hi⟩

/-! ## C29 -/

/-- The types of the containers open after a history, innermost first. -/
def openTypes : List (Option IonType) → List IonEvent → List (Option IonType)
  | st, [] => st
  | st, e :: es => match e.eventType with
    | .containerStart => openTypes (e.ionType :: st) es
    | .containerEnd => openTypes st.tail es
    | _ => openTypes st es

/-- A Python value that an Ion type accepts although it is not of the type's own Python class: any value for a bool (by
its truth), a bool for an int, the empty text for a lob. -/
def Lenient : IonType → PyVal → Prop
  | .bool, _ => True
  | .int, .bool _ => True
  | .clob, .str [] => True
  | .blob, .str [] => True
  | _, _ => False

/-- What makes an event ill formed after a history that leaves the containers `opens` open. -/
inductive Bad (opens : List (Option IonType)) (e : IonEvent) : Prop
  | unmatchedEnd : e.eventType = .containerEnd → opens = [] → Bad opens e
  | streamEndInside : e.eventType = .streamEnd → opens ≠ [] → Bad opens e
  | notForRaw : e.eventType = .versionMarker ∨ e.eventType = .incomplete → Bad opens e
  | notContainer : e.eventType = .containerStart → e.ionType.bind ctype = none → Bad opens e
  | noFieldName : e.eventType = .scalar ∨ e.eventType = .containerStart → opens.head? = some (some .struct) →
      e.fieldName.bind argSid = none → Bad opens e
  | untyped : e.eventType = .scalar → e.ionType = none → Bad opens e
  | raising (err : PyErr) : e.eventType = .scalar → e.value = .error err → Bad opens e
  | unresolvedAnnotation : e.eventType = .scalar → (∃ a ∈ e.annotations, argSid a = none) → Bad opens e
  | mismatch (ty : IonType) (v : PyVal) : e.eventType = .scalar → e.ionType = some ty → e.value = .ok (some v) →
      denote (·.sid) ty (some v) = none → ¬ Lenient ty v → Bad opens e

theorem handle_frames (s s' : State) (e : IonEvent) (cs : List Bytes) (w : WriteEventType)
    (h : handle s e = .ok (cs, w, s')) :
    s'.frames.map (fun f => some f.ty) = openTypes (s.frames.map (fun f => some f.ty)) [e] := by
  unfold handle at h
  cases hp : prologue s e with
  | error err => rw [hp] at h; cases h
  | ok b =>
    rw [hp] at h
    simp only [bind, Except.bind, pure, Except.pure] at h
    cases het : e.eventType with
    | scalar =>
      simp only [het] at h
      cases hs : serializeScalar e with
      | error err => rw [hs] at h; cases h
      | ok bs =>
        rw [hs] at h
        simp only at h
        cases hw : wrapUp (b.addScalarValue bs) e.annotations with
        | error err => rw [hw] at h; cases h
        | ok b' =>
          rw [hw] at h
          simp only [Except.ok.injEq, Prod.mk.injEq] at h
          obtain ⟨-, -, rfl⟩ := h
          simp [openTypes, het]
    | streamEnd =>
      simp only [het] at h
      split at h
      · cases hd : b.drain with
        | error err => rw [hd] at h; cases h
        | ok p =>
          rw [hd] at h
          simp only [Except.ok.injEq, Prod.mk.injEq] at h
          obtain ⟨-, -, rfl⟩ := h
          simp [openTypes, het]
      · cases h
    | containerStart =>
      simp only [het] at h
      split at h
      · cases h
      · rename_i ty hty
        split at h
        · simp only [Except.ok.injEq, Prod.mk.injEq] at h
          obtain ⟨-, -, rfl⟩ := h
          simp [openTypes, het, hty]
        · cases h
    | containerEnd =>
      simp only [het] at h
      split at h
      · cases h
      · rename_i f fs hf
        cases he : b.endContainer (containerHeader f.ty b.currentLength) with
        | error err => rw [he] at h; cases h
        | ok b1 =>
          rw [he] at h
          simp only at h
          cases hw : wrapUp b1 f.pending with
          | error err => rw [hw] at h; cases h
          | ok b2 =>
            rw [hw] at h
            simp only [Except.ok.injEq, Prod.mk.injEq] at h
            obtain ⟨-, -, rfl⟩ := h
            simp [openTypes, het, hf]
    | versionMarker => simp only [het] at h; cases h
    | incomplete => simp only [het] at h; cases h

theorem openTypes_append (st : List (Option IonType)) (a b : List IonEvent) :
    openTypes st (a ++ b) = openTypes (openTypes st a) b := by
  induction a generalizing st with
  | nil => rfl
  | cons e a ih => simp only [List.cons_append, openTypes]; split <;> exact ih _

theorem run_frames (evs : List IonEvent) (s s' : State) (cs : List Bytes) (h : runEvents step s evs = (cs, .ok s')) :
    s'.frames.map (fun f => some f.ty) = openTypes (s.frames.map (fun f => some f.ty)) evs := by
  induction evs generalizing s cs with
  | nil =>
    simp only [runEvents, Prod.mk.injEq, Except.ok.injEq] at h
    simp [openTypes, h.2]
  | cons e evs ih =>
    simp only [runEvents, step] at h
    cases hh : handle s e with
    | error err => rw [hh] at h; simp at h
    | ok p =>
      obtain ⟨c, w, s1⟩ := p
      rw [hh] at h
      simp only [Prod.mk.injEq] at h
      have := ih s1 (runEvents step s1 evs).1 (Prod.ext rfl h.2)
      rw [this, handle_frames s s1 e c w hh, ← openTypes_append]
      rfl

theorem sidOf_none {a : SymArg} (h : argSid a = none) : ∃ err, sidOf a = .error err := by
  cases a with
  | text t => exact ⟨_, rfl⟩
  | tok t => simp only [argSid] at h; exact ⟨_, by simp only [sidOf, h]; rfl⟩

theorem annotationSids_none {as : List SymArg} (h : ∃ a ∈ as, argSid a = none) :
    ∃ err, annotationSids as = .error err := by
  induction as with
  | nil => simp at h
  | cons a as ih =>
    simp only [annotationSids, bind, Except.bind]
    cases hs : sidOf a with
    | error err => exact ⟨err, rfl⟩
    | ok n =>
      have : ∃ b ∈ as, argSid b = none := by
        obtain ⟨b, hb, hn⟩ := h
        rcases List.mem_cons.1 hb with rfl | hb
        · obtain ⟨err, he⟩ := sidOf_none hn; rw [he] at hs; cases hs
        · exact ⟨b, hb, hn⟩
      obtain ⟨err, he⟩ := ih this
      exact ⟨err, by simp only [he]⟩

theorem serializeValue_mismatch {ty : IonType} {v : PyVal} (hd : denote (σ := Nat) (·.sid) ty (some v) = none)
    (hl : ¬ Lenient ty v) : ∃ err, serializeValue ty v = .error err := by
  cases ty <;> cases v <;> simp [denote, Lenient] at hd hl <;> simp [serializeValue, serializeLobVal]
  · simp [hd]
  all_goals (rename_i t; cases t <;> simp_all [serializeLobVal])

theorem handle_bad (s : State) (e : IonEvent) (h : Bad (s.frames.map fun f => some f.ty) e) :
    ∃ err, handle s e = .error err := by
  unfold handle
  cases hp : prologue s e with
  | error err => exact ⟨err, rfl⟩
  | ok b =>
    simp only [bind, Except.bind, pure, Except.pure]
    cases h with
    | unmatchedEnd het ho => simp only [het]; simp only [List.map_eq_nil_iff] at ho; simp [ho]
    | streamEndInside het ho =>
      simp only [het]
      have : s.frames ≠ [] := by intro hc; apply ho; simp [hc]
      simp [this]
    | notForRaw het => rcases het with het | het <;> simp [het]
    | notContainer het hty =>
      simp only [het]
      cases hi : e.ionType with
      | none => simp
      | some ty =>
        rw [hi] at hty
        cases ty <;> simp [ctype] at hty <;> simp [IonType.isContainer]
    | noFieldName het ho hf =>
      exfalso
      cases hfr : s.frames with
      | nil => rw [hfr] at ho; cases ho
      | cons f fs =>
        obtain ⟨ty, p⟩ := f
        rw [hfr] at ho
        simp only [List.map_cons, List.head?_cons, Option.some.injEq] at ho
        subst ho
        have hb : e.eventType.beginsValue = true := by rcases het with h | h <;> rw [h] <;> rfl
        simp only [prologue, hfr, hb, if_true, bind, Except.bind, pure, Except.pure] at hp
        cases hn : e.fieldName with
        | none => rw [hn] at hp; cases hp
        | some fa =>
          rw [hn] at hf hp
          obtain ⟨err, he⟩ := sidOf_none (a := fa) (by simpa using hf)
          simp [he] at hp
    | untyped het hty =>
      simp only [het]
      have : ∃ err, serializeScalar e = .error err := by
        simp only [serializeScalar, hty, bind, Except.bind]
        cases e.value with
        | error err => exact ⟨err, rfl⟩
        | ok v => cases v <;> exact ⟨_, rfl⟩
      obtain ⟨err, he⟩ := this
      simp [he]
    | raising err het hv => simp [het, serializeScalar, hv, bind, Except.bind]
    | unresolvedAnnotation het ha =>
      simp only [het]
      cases serializeScalar e with
      | error err => exact ⟨err, rfl⟩
      | ok bs =>
        obtain ⟨err, he⟩ := annotationSids_none ha
        have hne : e.annotations.isEmpty = false := by
          obtain ⟨a, ha, _⟩ := ha; cases hh : e.annotations <;> simp_all
        simp [wrapUp, hne, annotationHeader, he, bind, Except.bind]
    | mismatch ty v het hty hv hd hl =>
      obtain ⟨err, he⟩ := serializeValue_mismatch hd hl
      simp [het, serializeScalar, hv, hty, he, bind, Except.bind]

/-- **C29** (raw binary writer) After every accepted history, an ill-formed event - an unmatched `CONTAINER_END`,
`STREAM_END` inside a container, a version marker or `INCOMPLETE`, a container event of a scalar type, a missing field
name or one without symbol ID inside a struct, a scalar without type, whose value raises, whose annotations lack symbol
IDs, or whose Python type does not match its Ion type (but for the `Lenient` cases) - raises an exception, and the
output stays what it was. -/
theorem C29_raw_writer_rejects (evs : List IonEvent) (out : List Bytes) (s : State)
    (hrun : runEvents step init evs = (out, .ok s)) (e : IonEvent) (hbad : Bad (openTypes [] evs) e) :
    ∃ err, runEvents step init (evs ++ [e]) = (out, .error err) := by
  have hf := run_frames evs init s out hrun
  simp only [init, List.map_nil] at hf
  rw [← hf] at hbad
  obtain ⟨err, he⟩ := handle_bad s e hbad
  refine ⟨err, ?_⟩
  rw [runEvents_append, hrun]
  simp [runEvents, step, he]

/-- What the lenient cases are written as. -/
def lenientScalar : IonType → PyVal → Option (Scalar Nat)
  | .bool, v => some (.bool (truthy v))
  | .int, .bool b => some (.int (if b then 1 else 0))
  | .clob, .str [] => some (.clob [])
  | .blob, .str [] => some (.blob [])
  | _, _ => none

/-- The lenient cases of C29 are real: each is accepted and written as a scalar of the event's Ion type. -/
theorem C29_lenient_cases (ty : IonType) (v : PyVal) (h : Lenient ty v) :
    ∃ bs x, serializeValue ty v = .ok bs ∧ lenientScalar ty v = some x ∧ x.ty = ty ∧ IsScalar (toBytes bs) x := by
  cases ty <;> try (cases v <;> simp [Lenient] at h; done)
  · exact ⟨_, _, rfl, rfl, rfl, serializeBool_spec _⟩
  · cases v <;> simp [Lenient] at h
    exact ⟨_, _, rfl, rfl, rfl, serializeInt_spec _⟩
  · cases v <;> simp [Lenient] at h
    rename_i t
    cases t with
    | nil => exact ⟨_, _, rfl, rfl, rfl, .clob _ _ (C06_lob_roundtrip true _)⟩
    | cons c t => simp [Lenient] at h
  · cases v <;> simp [Lenient] at h
    rename_i t
    cases t with
    | nil => exact ⟨_, _, rfl, rfl, rfl, .blob _ _ (C06_lob_roundtrip false _)⟩
    | cons c t => simp [Lenient] at h

/-- Non-vacuity of C29: after the first two sample events a struct and a list are open, and `STREAM_END` is rejected. -/
example : Bad (openTypes [] (sampleEvents.take 2)) ION_STREAM_END_EVENT ∧
    (∃ s, runEvents step init (sampleEvents.take 2) = ([], .ok s)) :=
  ⟨.streamEndInside rfl (by simp [sampleEvents, openTypes]), ⟨_, rfl⟩⟩

/-- The raw writer meets the hypothesis of C28: a step ends with `NEEDS_INPUT` or `COMPLETE`. -/
theorem C28_raw_writer_settles : Trampoline.Settles step := by
  intro s e t s' h
  simp only [step] at h
  cases hh : handle s e with
  | error err => rw [hh] at h; cases h
  | ok p =>
    obtain ⟨cs, w, s1⟩ := p
    rw [hh] at h
    simp only [Except.ok.injEq, Prod.mk.injEq] at h
    obtain ⟨rfl, rfl⟩ := h
    unfold handle at hh
    simp only [bind, Except.bind, pure, Except.pure] at hh
    repeat' split at hh
    all_goals first
      | cases hh; done
      | (simp only [Except.ok.injEq, Prod.mk.injEq] at hh; obtain ⟨-, h, -⟩ := hh; rw [← h]; simp)

/-- Non-vacuity of C28: the sample document flushed through the trampoline. -/
example : (Trampoline.sends step (.fresh init)
    ((sampleEvents ++ [ION_STREAM_END_EVENT]).map some ++ List.replicate 4 none)).1.getLast?
      = some (.ok (.hasPending, [0x21, 0x01])) := by decide +kernel

end Ion.RawWriter
