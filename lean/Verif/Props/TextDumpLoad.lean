import Verif.Props.TextTables
set_option linter.unusedSimpArgs false
/-!
# C48, C49: `load` of text documents, and `dump` followed by `load` with Ion text
-/
namespace Ion.Simple
open Ion Ion.Spec Ion.Simple.Spec Ion.ManagedWriter
open Ion.ManagedReader (Event Context)
open Ion.Text (Pieces toBytes units_bytes units_str flatMap_units piece_bound blank_ascii indent_ok)
open Ion.TextWriter (Ascii)
open Ion.TextSpec (TSym symbolText docEvents Denotes IsBlank IsDoc)

/-! ## What `load` is given -/

theorem strPieces_pieces (size : Nat) (hs : 0 < size) (t : Text) : Pieces (strPieces size t) t := by
  induction t using strPieces.induct size with
  | case1 doc h =>
    rw [strPieces, dif_pos h]
    rcases h with h | h
    · subst h; exact ⟨rfl, by simp⟩
    · omega
  | case2 doc h ih =>
    rw [strPieces, dif_neg h]
    simp only [not_or] at h
    refine ⟨?_, ?_⟩
    · rw [List.flatten_cons, ih.1, List.take_append_drop]
    · intro c hc
      rcases List.mem_cons.1 hc with rfl | hc
      · intro h0
        have := congrArg List.length h0
        have hpos : 0 < doc.length := List.length_pos_iff.2 h.1
        simp only [List.length_take, List.length_nil] at this
        omega
      · exact ih.2 c hc

/-- The outcome of `load` with `single_value`. -/
def single (objs : List PyObj) : Except PyErr (List PyObj) := if objs.length = 1 then .ok objs else .error .ionException

/-- `load` of a file with this text, opened in text mode or, if the text is ASCII, in binary mode, in whatever pieces `read`
returns it, and `loads` of the text, return these objects; with `single_value` if there is exactly one of them. -/
def LoadsAs (F : FloatText) (catalog : Catalog) (t : Text) (objs : List PyObj) : Prop :=
  (∀ ps, Pieces ps t → load F catalog false (.str ps) = some (.ok objs) ∧ load F catalog true (.str ps) = some (single objs)) ∧
  (loadsStr F catalog false t = some (.ok objs) ∧ loadsStr F catalog true t = some (single objs)) ∧
  (Ascii t → ∀ cs, RawReader.Chunks cs (toBytes t) → load F catalog false (.bytes cs) = some (.ok objs) ∧ load F catalog true (.bytes cs) = some (single objs)) ∧
  (Ascii t → loadsBytes F catalog false (toBytes t) = some (.ok objs) ∧ loadsBytes F catalog true (toBytes t) = some (single objs))

/-- `load` when the events of the raw reader are known. -/
theorem loadText_of_answers {F : FloatText} {units : Bytes → List Nat} {catalog : Catalog} {t : List Nat} {es : List IonEvent} (ha : TextReader.Answers F {} t es none)
    {out : List Event} {ctx' : Context} (hf : filterEvents { catalog := catalog } none es = some (out, ctx', none)) {ps : List (Option Text × PyObj)}
    (hl : ∀ (o : Out) src src2, o.isDict = false → Delivers (ManagedReader.send (TextReader.send F units)) src out src2 →
      loadLoop (ManagedReader.send (TextReader.send F units)) .streamEnd o src = loadLoop (ManagedReader.send (TextReader.send F units)) .streamEnd (ps.foldl Out.push o) src2)
    {cs : List Bytes} (hne : ∀ d ∈ cs, units d ≠ []) (ht : cs.flatMap units = t) :
    loadText F units catalog false cs = some (.ok (ps.map (·.2))) ∧ loadText F units catalog true cs = some (single (ps.map (·.2))) := by
  subst ht
  obtain ⟨src2, d1, d2⟩ := delivers_filtered (TextReader.reading_of_answers hne ha) hf
  have hload := hl (.list []) _ src2 rfl d1
  rw [foldl_list, List.nil_append, loadLoop.eq_def _ _ _ src2, d2] at hload
  simp only [lastEvent, bind, Option.bind_some, streamEnd, if_true] at hload
  refine ⟨by simp [loadText, loadFrom, hload, bind, Out.values], ?_⟩
  simp only [loadText, loadFrom, hload, bind, Option.bind_some, Out.values, true_and, List.length_map, ne_eq, single]
  by_cases h : ps.length = 1
  · simp [h]
  · rw [if_pos h, if_neg h]

theorem text_format {t : Text} (h : Ascii t) : formatOf false (toBytes t) = .text := by
  refine (C45_format_detection _).2.1.2 ?_
  rintro ⟨x, hx⟩
  cases t with
  | nil => simp [toBytes] at hx
  | cons c t =>
    simp only [toBytes, List.map_cons, List.cons_append, List.cons.injEq] at hx
    have h1 := h c (by simp)
    have h2 := congrArg UInt8.toNat hx.1
    simp only [UInt8.toNat_ofNat'] at h2
    have h3 : (224 : UInt8).toNat = 224 := rfl
    omega

theorem loads_of_pieces {F : FloatText} {catalog : Catalog} {t : Text} {objs : List PyObj}
    (hs : ∀ ps, Pieces ps t → load F catalog false (.str ps) = some (.ok objs) ∧ load F catalog true (.str ps) = some (single objs))
    (hb : Ascii t → ∀ cs, RawReader.Chunks cs (toBytes t) → load F catalog false (.bytes cs) = some (.ok objs) ∧ load F catalog true (.bytes cs) = some (single objs)) :
    LoadsAs F catalog t objs :=
  ⟨hs, hs _ (strPieces_pieces _ (by decide) _), hb, fun ha => hb ha _ (pieces_chunks _ (by decide) _)⟩

theorem flatMap_bytes (cs : List Bytes) : cs.flatMap TextReader.byteUnits = TextReader.byteUnits cs.flatten := by
  induction cs with
  | nil => rfl
  | cons c cs ih => rw [List.flatMap_cons, ih, List.flatten_cons, TextReader.byteUnits, TextReader.byteUnits, TextReader.byteUnits, List.map_append]

/-- **C48** (`load`).  For every document of the text grammar whose items stand for the given values of the user (`Denotes`:
version markers reset the symbol table, local symbol tables declare and import symbols, symbol IDs are resolved in the table
in force), `load` and `loads` return objects that mean exactly those values, in order. -/
theorem C48_load_text_document_partial (F : FloatText) (ws bs : List Nat) (items : List (Option (Spec.Node TSym))) (hws : TextSpec.IsTrivia ws) (hdoc : IsDoc F bs items)
    (hc : ∀ c ∈ ws ++ bs, c ≤ 0x10FFFF) (catalog : Catalog) (hcat : Catalog.Registered catalog) (values : List Val)
    (hv : Denotes catalog systemTable items values) :
    ∃ objs, Mean objs values ∧ objs.length = values.length ∧ LoadsAs F catalog (ws ++ bs) objs := by
  have ha := TextReader.answers_of_events (TextReader.doc_events hws hdoc)
  obtain ⟨ps, out, ctx', h1, h2, h3⟩ := load_denotes hcat hv (doc_shaped hdoc) (ManagedReader.means_system catalog) rfl
  have hlen : ps.length = values.length := h1.length_eq
  refine ⟨ps.map (·.2), ⟨?_, fun b => loaded_seq h1⟩, by simpa using hlen, loads_of_pieces ?_ ?_⟩
  · intro o ho
    obtain ⟨p, hp, rfl⟩ := List.mem_map.1 ho
    clear hlen h2 h3 hv
    induction h1 with
    | nil => cases hp
    | cons h1 _ ih =>
      rcases List.mem_cons.1 hp with rfl | hp
      · exact h1.1
      · exact ih hp (List.mem_map_of_mem hp)
  · intro qs hq
    have hu : ∀ p ∈ qs, TextReader.strUnits (TextReader.strBytes p) = p := fun p hp => units_str fun c hc' => by
      have := piece_bound hq hc p hp c hc'
      omega
    refine loadText_of_answers ha h2 (fun o src src2 => h3 _ o src src2) ?_ ?_
    · intro d hd
      obtain ⟨p, hp, rfl⟩ := List.mem_map.1 hd
      rw [hu p hp]
      exact hq.2 p hp
    · rw [flatMap_units hu, hq.1]
  · intro hasc cs hcs
    have hfmt : formatOf false cs.flatten = .text := by rw [hcs.1]; exact text_format hasc
    simp only [load, hfmt]
    refine loadText_of_answers ha h2 (fun o src src2 => h3 _ o src src2) ?_ ?_
    · intro d hd h
      exact hcs.2 d hd (List.map_eq_nil_iff.1 h)
    · rw [flatMap_bytes, hcs.1]
      exact units_bytes fun c hc' => by
        have := hasc c hc'
        omega

/-! ## What `dump` sends -/

end Ion.Simple

namespace Ion.Simple.Spec
open Ion Ion.Spec

mutual
/-- The keys and annotations in an object. -/
def namesIn : PyObj → List SymArg
  | .none => []
  | .null _ ann => ann
  | .scalar (.plain _) _ => []
  | .scalar (.ion _ ann) _ => ann
  | .seq (.plain _) elems => namesInAll elems
  | .seq (.ion _ ann) elems => ann ++ namesInAll elems
  | .dict (.plain _) items => namesInItems items
  | .dict (.ion _ ann) items => ann ++ namesInItems items
  | .other _ => []
/-- `namesIn` for a list. -/
def namesInAll : List PyObj → List SymArg
  | [] => []
  | o :: os => namesIn o ++ namesInAll os
/-- `namesIn` for the items of a dictionary. -/
def namesInItems : List (Option SymArg × PyObj) → List SymArg
  | [] => []
  | (key, o) :: items => key.toList ++ namesIn o ++ namesInItems items
end

mutual
/-- The scalars in an object, with what is known of their types. -/
def scalarsIn : PyObj → List (Kind × PyVal)
  | .scalar k v => [(k, v)]
  | .seq _ elems => scalarsInAll elems
  | .dict _ items => scalarsInItems items
  | _ => []
/-- `scalarsIn` for a list. -/
def scalarsInAll : List PyObj → List (Kind × PyVal)
  | [] => []
  | o :: os => scalarsIn o ++ scalarsInAll os
/-- `scalarsIn` for the items of a dictionary. -/
def scalarsInItems : List (Option SymArg × PyObj) → List (Kind × PyVal)
  | [] => []
  | (_, o) :: items => scalarsIn o ++ scalarsInItems items
end

/-- A symbol that text can express (not one with a text like `$10`). -/
def SafeSymbol (a : SymArg) : Prop := ∀ s, TextSpec.argSym a = some s → TextSpec.SymSafe s

/-- A scalar that text can express. -/
def SafeScalar (tupleAsSexp : Bool) (k : Kind) (v : PyVal) : Prop :=
  TextSpec.ValSafe v ∧ ((∃ ann, Typed tupleAsSexp k .symbol ann) → ∀ a, asSymbol v = some a → SafeSymbol a)

/-- A value that text would take for a version marker if it stood at the top level. -/
def VersionLike : Val → Prop
  | .scalar _ [] (.symbol (some t)) => TextSpec.IsMarkerText t
  | _ => False

end Ion.Simple.Spec

namespace Ion.Simple
open Ion Ion.Spec Ion.Simple.Spec Ion.ManagedWriter
open Ion.ManagedReader (Event Context)
open Ion.Text (Pieces toBytes units_bytes units_str flatMap_units piece_bound blank_ascii indent_ok)
open Ion.TextWriter (Ascii)
open Ion.TextSpec (TSym symbolText docEvents Denotes IsBlank IsDoc EventSafe argSym tokSym symbolsOf textValues MarkerLike Given)

theorem safe_event {sym : SymArg → Option (Option Text)} {o : PyObj} {s : Bool} {key : Option SymArg} {f : Option (Option Text)}
    (hp : Placed sym o s key f) (hk : ∀ a, key = some a → SafeSymbol a) (ha : ∀ a ∈ eventAnn (kindOf o), SafeSymbol a)
    {et : IonEventType} {ty : Option IonType} {ov : Option PyVal} {d : Nat}
    (hv : ∀ v, ov = some v → TextSpec.ValSafe v ∧ (ty = some .symbol → ∀ a, asSymbol v = some a → SafeSymbol a)) :
    EventSafe (objEvent (kindOf o) et ty ov key s d) := by
  have hfield : ∀ a, eventField (kindOf o) key s = some a → SafeSymbol a := by
    intro a h
    cases s with
    | false =>
      simp only [Placed, Bool.false_eq_true, if_false] at hp
      obtain ⟨-, rfl⟩ := hp
      cases hko : kindOf o <;> simp [hko, eventField, natureField] at h
    | true =>
      simp only [Placed, if_true] at hp
      obtain ⟨name, -, hn⟩ := hp
      cases key with
      | some k =>
        have hs : argSym a = argSym k := by
          cases hko : kindOf o <;> cases k <;> simp [hko, eventField, natureField] at h <;> subst h <;> rfl
        intro s' hs'
        exact hk _ rfl s' (by rw [← hs]; exact hs')
      | none =>
        cases hko : kindOf o <;> simp [hko, eventField, natureField] at h
        subst h
        intro s' hs'
        simp [argSym, tokSym] at hs'
        subst hs'
        exact trivial
  rw [objEvent_eq]
  constructor
  · intro a ha'
    simp only [symbolsOf, List.mem_append, Option.mem_toList] at ha'
    rcases ha' with (h | h) | h
    · exact hfield a h
    · exact ha a h
    · cases ov with
      | none => cases ty <;> simp at h
      | some v =>
        by_cases hty : ty = some .symbol
        · subst hty
          refine (hv v rfl).2 rfl a ?_
          cases v <;> simp [asSymbol] at h ⊢ <;> exact h.symm
        · exfalso
          split at h <;> simp_all
  · intro v h
    simp only [Except.ok.injEq] at h
    exact (hv v h).1

theorem end_safe : EventSafe endEvent := ⟨by simp [symbolsOf, endEvent], by simp [endEvent]⟩

theorem name_sub {k : Kind} {rest l : List SymArg} (h : ∀ a ∈ l, SafeSymbol a)
    (hl : (∃ c, k = .plain c ∧ l = rest) ∨ ∃ ty ann, k = .ion ty ann ∧ l = ann ++ rest) :
    (∀ a ∈ eventAnn k, SafeSymbol a) ∧ ∀ a ∈ rest, SafeSymbol a := by
  rcases hl with ⟨c, rfl, rfl⟩ | ⟨ty, ann, rfl, rfl⟩
  · exact ⟨by simp [eventAnn], h⟩
  · exact ⟨fun a ha => h a (List.mem_append_left _ ha), fun a ha => h a (List.mem_append_right _ ha)⟩

/-- All that `dump` sends can be expressed in text. -/
theorem dump_safe {b : Bool} {t0 : Table} {f : Option (Option Text)} {o : PyObj} {n : Val} (h : IsValue b (argText t0) f o n) :
    ∀ key s d, Placed (argText t0) o s key f → (∀ a, key = some a → SafeSymbol a) → (∀ a ∈ namesIn o, SafeSymbol a) → (∀ p ∈ scalarsIn o, SafeScalar b p.1 p.2) →
      ∀ e ∈ (dumpObj b key s d o).1, EventSafe e := by
  refine IsValue.rec (tupleAsSexp := b) (sym := argText t0)
    (motive_1 := fun f o n _ => ∀ key s d, Placed (argText t0) o s key f → (∀ a, key = some a → SafeSymbol a) → (∀ a ∈ namesIn o, SafeSymbol a) → (∀ p ∈ scalarsIn o, SafeScalar b p.1 p.2) →
      ∀ e ∈ (dumpObj b key s d o).1, EventSafe e)
    (motive_2 := fun os ns _ => ∀ d, (∀ a ∈ namesInAll os, SafeSymbol a) → (∀ p ∈ scalarsInAll os, SafeScalar b p.1 p.2) → ∀ e ∈ (dumpElems b d os).1, EventSafe e)
    (motive_3 := fun items ns _ => ∀ d, (∀ a ∈ namesInItems items, SafeSymbol a) → (∀ p ∈ scalarsInItems items, SafeScalar b p.1 p.2) → ∀ e ∈ (dumpItems b d items).1, EventSafe e)
    ?_ ?_ ?_ ?_ ?_ ?_ ?_ ?_ ?_ h
  · intro f key s d hp hk _ _ e he
    simp only [dumpObj, List.mem_singleton] at he
    subst he
    exact safe_event (o := .none) hp hk (by simp [kindOf, eventAnn]) (by simp)
  · intro f ty ann a ha key s d hp hk hs _ e he
    simp only [dumpObj, List.mem_singleton] at he
    subst he
    exact safe_event (o := .null (some ty) ann) hp hk (by simpa [kindOf, eventAnn, namesIn] using hs) (by simp)
  · intro f k v ty ann a x hk ha hx key s d hp hkey hs hv e he
    obtain ⟨h1, h2⟩ := typed_type hk
    have hc : ty.isContainer = false := by
      cases ty <;> first | rfl | (cases v <;> simp [scalarOf, denote] at hx)
    simp only [dumpObj, h1, hc, Bool.false_eq_true, if_false, List.mem_singleton] at he
    subst he
    refine safe_event (o := .scalar k v) hp hkey (name_sub (k := k) (rest := []) hs (by cases k <;> simp [namesIn])).1 ?_
    intro v' hv'
    cases hv'
    have := hv (k, v) (by simp [scalarsIn])
    exact ⟨this.1, fun hty => this.2 ⟨ann, by cases hty; exact hk⟩⟩
  · intro f k elems ty ann a ns hk hty ha _ ih key s d hp hkey hs hv e he
    obtain ⟨h1, h2⟩ := typed_type hk
    have hns : ¬ ty.ty = IonType.struct := by cases ty <;> simp [CType.ty] at hty ⊢
    obtain ⟨hs1, hs2⟩ := name_sub (k := k) (rest := namesInAll elems) hs (by cases k <;> simp [namesIn])
    simp only [dumpObj, h1, hns, if_false, ctype_container, if_true] at he
    have hin := ih (d + 1) hs2 (by simpa [scalarsIn] using hv)
    generalize dumpElems b (d + 1) elems = r at he hin
    obtain ⟨evs, err⟩ := r
    cases err <;> simp only [Sent.andThen, List.mem_append, List.mem_cons, List.not_mem_nil, or_false, List.mem_singleton] at he
    · rcases he with rfl | he | rfl
      · exact safe_event (o := .seq k elems) hp hkey hs1 (by simp)
      · exact hin e he
      · exact end_safe
    · rcases he with rfl | he
      · exact safe_event (o := .seq k elems) hp hkey hs1 (by simp)
      · exact hin e he
  · intro f k items ann a ns hk ha _ ih key s d hp hkey hs hv e he
    obtain ⟨h1, h2⟩ := typed_type hk
    obtain ⟨hs1, hs2⟩ := name_sub (k := k) (rest := namesInItems items) hs (by cases k <;> simp [namesIn])
    simp only [dumpObj, h1, if_true] at he
    have hin := ih (d + 1) hs2 (by simpa [scalarsIn] using hv)
    generalize dumpItems b (d + 1) items = r at he hin
    obtain ⟨evs, err⟩ := r
    cases err <;> simp only [Sent.andThen, List.mem_append, List.mem_cons, List.not_mem_nil, or_false, List.mem_singleton] at he
    · rcases he with rfl | he | rfl
      · exact safe_event (o := .dict k items) hp hkey hs1 (by simp)
      · exact hin e he
      · exact end_safe
    · rcases he with rfl | he
      · exact safe_event (o := .dict k items) hp hkey hs1 (by simp)
      · exact hin e he
  · intro d _ _ e he
    simp [dumpElems] at he
  · intro o n os ns _ _ ih1 ih2 d hs hv e he
    simp only [namesInAll, scalarsInAll, List.mem_append] at hs hv
    have i1 := ih1 none false d (by simp [Placed]) (by simp) (fun a ha => hs a (.inl ha)) (fun v h => hv v (.inl h))
    have i2 := ih2 d (fun a ha => hs a (.inr ha)) (fun v h => hv v (.inr h))
    simp only [dumpElems] at he
    generalize dumpObj b none false d o = r at he i1
    obtain ⟨evs, err⟩ := r
    cases err <;> simp only [Sent.andThen, List.mem_append] at he
    · exact he.elim (i1 e) (i2 e)
    · exact i1 e he
  · intro d _ _ e he
    simp [dumpItems] at he
  · intro key name o n items ns hname _ _ ih1 ih2 d hs hv e he
    simp only [namesInItems, scalarsInItems, List.mem_append] at hs hv
    have i1 := ih1 key true d (by simp [Placed, hname]) (fun a ha => hs a (.inl (.inl (by simp [ha])))) (fun a ha => hs a (.inl (.inr ha))) (fun v h => hv v (.inl h))
    have i2 := ih2 d (fun a ha => hs a (.inr ha)) (fun v h => hv v (.inr h))
    simp only [dumpItems] at he
    generalize dumpObj b key true d o = r at he i1
    obtain ⟨evs, err⟩ := r
    cases err <;> simp only [Sent.andThen, List.mem_append] at he
    · exact he.elim (i1 e) (i2 e)
    · exact i1 e he

/-- The same for the values at the top level. -/
theorem dump_all_safe {b : Bool} {t0 : Table} {os : List PyObj} {ns : List Val} (h : AreValues b (argText t0) os ns) (hs : ∀ a ∈ namesInAll os, SafeSymbol a)
    (hv : ∀ p ∈ scalarsInAll os, SafeScalar b p.1 p.2) : ∀ e ∈ (dumpElems b 0 os).1, EventSafe e := by
  induction os generalizing ns with
  | nil => intro e he; simp [dumpElems] at he
  | cons o os ih =>
    cases h with
    | cons _ n _ ns h1 h2 =>
      intro e he
      simp only [namesInAll, scalarsInAll, List.mem_append] at hs hv
      have i1 := dump_safe h1 none false 0 (by simp [Placed]) (by simp) (fun a ha => hs a (.inl ha)) (fun v h => hv v (.inl h))
      have i2 := ih h2 (fun a ha => hs a (.inr ha)) (fun v h => hv v (.inr h))
      simp only [dumpElems] at he
      generalize dumpObj b none false 0 o = r at he i1
      obtain ⟨evs, err⟩ := r
      cases err <;> simp only [Sent.andThen, List.mem_append] at he
      · exact he.elim (i1 e) (i2 e)
      · exact i1 e he

/-! ## Symbols by text -/

section
variable {σ τ : Type} {f : σ → τ} {sym : SymArg → Option σ} {sym' : SymArg → Option τ} {symTok : SymbolToken → Option σ} {symTok' : SymbolToken → Option τ}

/-- What is known of the symbols of the second kind is known of the first. -/
def Lifts {α : Type} (f : σ → τ) (sym : α → Option σ) (sym' : α → Option τ) : Prop := ∀ a s', sym' a = some s' → ∃ s, sym a = some s ∧ f s = s'

theorem allSome_lift (h : Lifts f sym sym') : ∀ {as : List SymArg} {ss : List τ}, allSome sym' as = some ss → ∃ ss0, allSome sym as = some ss0 ∧ ss0.map f = ss := by
  intro as
  induction as with
  | nil => intro ss hs; cases hs; exact ⟨[], rfl, rfl⟩
  | cons a as ih =>
    intro ss hs
    simp only [allSome] at hs
    cases h1 : sym' a with
    | none => rw [h1] at hs; simp at hs
    | some s' =>
      cases h2 : allSome sym' as with
      | none => rw [h1, h2] at hs; simp at hs
      | some ss' =>
        rw [h1, h2] at hs
        cases hs
        obtain ⟨s, k1, k2⟩ := h a s' h1
        obtain ⟨ss0, k3, k4⟩ := ih h2
        exact ⟨s :: ss0, by simp [allSome, k1, k3], by simp [k2, k4]⟩

theorem fieldOf_lift (h : Lifts f sym sym') {b : Bool} {fn : Option SymArg} {x : Option τ} (hx : fieldOf sym' b fn = some x) : ∃ y, fieldOf sym b fn = some y ∧ y.map f = x := by
  unfold fieldOf at hx ⊢
  cases b with
  | false => simp only [Bool.false_eq_true, if_false, Option.some.injEq] at hx ⊢; subst hx; exact ⟨_, rfl, rfl⟩
  | true =>
    simp only [if_true] at hx ⊢
    cases fn with
    | none => simp at hx
    | some a =>
      simp only [Option.bind_some] at hx ⊢
      cases hs : sym' a with
      | none => rw [hs] at hx; simp at hx
      | some s' =>
        rw [hs] at hx
        cases hx
        obtain ⟨s, k1, k2⟩ := h a s' hs
        exact ⟨some s, by simp [k1], by simp [k2]⟩

theorem denote_lift (h : Lifts f symTok symTok') {ty : IonType} {v : Option PyVal} {x : Scalar τ} (hx : denote symTok' ty v = some x) : ∃ y, denote symTok ty v = some y ∧ y.map f = x := by
  cases v with
  | none => cases hx; exact ⟨_, rfl, rfl⟩
  | some v =>
    cases ty <;> cases v <;> simp only [denote, reduceCtorEq, Option.some.injEq] at hx ⊢ <;> first | (subst hx; exact ⟨_, rfl, rfl⟩) | skip
    rename_i k
    cases hk : symTok' k with
    | none => rw [hk] at hx; simp at hx
    | some s' =>
      rw [hk] at hx
      cases hx
      obtain ⟨s, k1, k2⟩ := h k s' hk
      exact ⟨.symbol s, by simp [k1], by simp [Scalar.map, k2]⟩

theorem step_lift (h : Lifts f sym sym') (hk : Lifts f symTok symTok') {e : IonEvent} {t : Tree σ} {t1 : Tree τ} (hs : (t.map f).step sym' symTok' e = some t1) :
    ∃ t0, t.step sym symTok e = some t0 ∧ t0.map f = t1 := by
  unfold Tree.step at hs ⊢
  cases het : e.eventType with
  | scalar =>
    simp only [het, Tree.inStruct_map] at hs ⊢
    cases hf : fieldOf sym' t.inStruct e.fieldName with
    | none => rw [hf] at hs; simp at hs
    | some fl =>
      cases ha : allSome sym' e.annotations with
      | none => rw [hf, ha] at hs; simp at hs
      | some as =>
        cases hty : e.ionType with
        | none => rw [hf, ha, hty] at hs; simp at hs
        | some ty =>
          cases hv : e.value with
          | error err => rw [hf, ha, hty, hv] at hs; simp at hs
          | ok v =>
            rw [hf, ha, hty, hv] at hs
            simp only at hs
            cases hd : denote symTok' ty v with
            | none => rw [hd] at hs; simp at hs
            | some x =>
              rw [hd] at hs
              cases hs
              obtain ⟨fl0, f1, rfl⟩ := fieldOf_lift h hf
              obtain ⟨as0, a1, rfl⟩ := allSome_lift h ha
              obtain ⟨x0, x1, rfl⟩ := denote_lift hk hd
              rw [f1, a1]
              simp only [x1]
              exact ⟨_, rfl, by simp [Tree.map, Node.map]⟩
  | containerStart =>
    simp only [het, Tree.inStruct_map] at hs ⊢
    cases hf : fieldOf sym' t.inStruct e.fieldName with
    | none => rw [hf] at hs; simp at hs
    | some fl =>
      cases ha : allSome sym' e.annotations with
      | none => rw [hf, ha] at hs; simp at hs
      | some as =>
        cases hty : e.ionType.bind ctype with
        | none => rw [hf, ha, hty] at hs; simp at hs
        | some ty =>
          rw [hf, ha, hty] at hs
          cases hs
          obtain ⟨fl0, f1, rfl⟩ := fieldOf_lift h hf
          obtain ⟨as0, a1, rfl⟩ := allSome_lift h ha
          rw [f1, a1]
          exact ⟨_, rfl, by simp [Tree.map, OpenNode.map]⟩
  | containerEnd =>
    simp only [het] at hs ⊢
    obtain ⟨cur, opens⟩ := t
    cases opens with
    | nil => simp [Tree.map] at hs
    | cons o os =>
      simp only [Tree.map, List.map_cons, Option.some.injEq] at hs
      subst hs
      exact ⟨_, rfl, by simp [Tree.map, Node.map, mapAll_eq, OpenNode.map]⟩
  | incomplete => rw [het] at hs; simp at hs
  | streamEnd => rw [het] at hs; simp at hs
  | versionMarker => rw [het] at hs; simp at hs

theorem valuesOf_lift (h : Lifts f sym sym') (hk : Lifts f symTok symTok') {es : List IonEvent} {vs : List (Spec.Node τ)} (hv : valuesOf sym' symTok' es = some vs) :
    ∃ ns, valuesOf sym symTok es = some ns ∧ ns.map (Node.map f) = vs := by
  have run : ∀ (es : List IonEvent) (t : Tree σ) (t1 : Tree τ), (t.map f).run sym' symTok' es = some t1 → ∃ t0, t.run sym symTok es = some t0 ∧ t0.map f = t1 := by
    intro es
    induction es with
    | nil => intro t t1 hr; cases hr; exact ⟨t, rfl, rfl⟩
    | cons e es ih =>
      intro t t1 hr
      simp only [Tree.run] at hr ⊢
      cases hs : (t.map f).step sym' symTok' e with
      | none => rw [hs] at hr; cases hr
      | some t' =>
        rw [hs] at hr
        obtain ⟨t0, k1, rfl⟩ := step_lift h hk hs
        rw [k1]
        exact ih t0 t1 hr
  unfold valuesOf at hv ⊢
  cases hr : Tree.empty.run sym' symTok' es with
  | none => rw [hr] at hv; cases hv
  | some t =>
    rw [hr] at hv
    obtain ⟨t0, k1, k2⟩ := run es Tree.empty t hr
    rw [k1]
    subst k2
    obtain ⟨cur, opens⟩ := t0
    cases opens with
    | nil => simp only [Tree.map, List.map_nil, Option.some.injEq] at hv; exact ⟨cur, rfl, hv⟩
    | cons o os => simp [Tree.map] at hv
end

theorem arg_lifts (t : Table) : Lifts (symbolText t) argSym (fun a => (argText t a).map .ok) := by
  intro a s' h
  cases a with
  | text s =>
    simp only [argText, Option.map_some, Option.some.injEq] at h
    exact ⟨.text s, rfl, h⟩
  | tok k =>
    obtain ⟨text, sid, loc⟩ := k
    cases text with
    | some s =>
      simp only [argText, Option.map_some, Option.some.injEq] at h
      exact ⟨.text s, rfl, h⟩
    | none =>
      cases sid with
      | none => simp [argText] at h
      | some n =>
        refine ⟨.sid n, rfl, ?_⟩
        simp only [argText] at h
        cases hx : t.text n with
        | error err => rw [hx] at h; simp at h
        | ok x =>
          rw [hx] at h
          simp only [Option.map_some, Option.some.injEq] at h
          rw [← h]
          exact hx

/-- The values that text says of events, and their values by text. -/
theorem text_values {t : Table} {evs : List IonEvent} {ns : List Val} (h : valuesGiven t evs = some ns) :
    ∃ items, textValues evs = some items ∧ items.map (Node.map (symbolText t)) = ns.map (Node.map .ok) := by
  have h2 := valuesOf_map (f := (Except.ok : Option Text → Except PyErr (Option Text))) (sym' := fun a => (argText t a).map .ok)
    (symTok' := fun k => (argText t (.tok k)).map .ok) (evs.map asToken)
    (fun e he a ha n hn => by simp [hn]) (fun e he k h1 h2 n hn => by simp [hn]) ns h
  exact valuesOf_lift (arg_lifts t) (fun k => arg_lifts t (.tok k)) h2

/-- Values without symbol tables mean themselves. -/
theorem denotes_values {catalog : Catalog} {t : Table} : ∀ {items : List (Spec.Node TSym)} {values : List Val}, items.map (Node.map (symbolText t)) = values.map (Node.map .ok) →
    (∀ n ∈ values, ¬ SystemLike n) → Denotes catalog t (items.map some) values := by
  intro items
  induction items with
  | nil =>
    intro values h _
    cases values with
    | nil => exact .nil _
    | cons => simp at h
  | cons n items ih =>
    intro values h hs
    cases values with
    | nil => simp at h
    | cons v values =>
      simp only [List.map_cons, List.cons.injEq] at h
      exact .value _ _ _ _ _ h.1 (hs v (by simp)) (ih h.2 fun n hn => hs n (by simp [hn]))

theorem not_marker {t : Table} : ∀ {items : List (Spec.Node TSym)} {values : List Val}, items.map (Node.map (symbolText t)) = values.map (Node.map .ok) →
    (∀ n ∈ values, ¬ VersionLike n) → ∀ n ∈ items, ¬ MarkerLike n := by
  intro items
  induction items with
  | nil => intro _ _ _ n hn; cases hn
  | cons m items ih =>
    intro values h hs n hn
    cases values with
    | nil => simp at h
    | cons v values =>
      simp only [List.map_cons, List.cons.injEq] at h
      rcases List.mem_cons.1 hn with rfl | hn
      · intro hm
        cases n with
        | cont => exact hm
        | scalar f a x =>
          cases a with
          | cons => exact hm
          | nil =>
            cases x <;> try exact hm
            rename_i s
            cases s with
            | sid => exact hm
            | text s =>
              cases v with
              | cont => simp [Node.map] at h
              | scalar f' a' y =>
                simp only [Node.map, Node.scalar.injEq, List.map_nil, List.nil_eq, List.map_eq_nil_iff] at h
                obtain ⟨⟨-, rfl, hy⟩, -⟩ := h
                cases y <;> simp [Scalar.map, symbolText] at hy
                subst hy
                exact hs (.scalar f' [] (.symbol (some s))) (by simp) hm
      · exact ih h.2 (fun n hn => hs n (by simp [hn])) n hn

/-! ## `dump` with `binary=False` -/

theorem runText_split (F : FloatText) (ind : Option (List Nat)) (b : List IonEvent) : ∀ (a : List IonEvent) (s : TextWriter.State),
    TextWriter.runText F ind s (a ++ b) = match TextWriter.runText F ind s a with
      | (out, .error err) => (out, .error err)
      | (out, .ok s') => (out ++ (TextWriter.runText F ind s' b).1, (TextWriter.runText F ind s' b).2) := by
  intro a
  induction a with
  | nil => intro s; simp [TextWriter.runText]
  | cons e a ih =>
    intro s
    rw [List.cons_append, TextWriter.runText, TextWriter.runText]
    generalize TextWriter.step F ind s e = r
    obtain ⟨c, r⟩ := r
    cases r with
    | error err => rfl
    | ok r =>
      obtain ⟨⟨w, c2⟩, s'⟩ := r
      simp only [ih]
      generalize TextWriter.runText F ind s' a = r2
      obtain ⟨out, r2⟩ := r2
      cases r2 <;> simp [List.append_assoc]

theorem decode_ascii : ∀ {t : Text}, Ascii t → Utf8.decode (toBytes t) = .ok t := by
  intro t h
  refine Utf8.decode_encode _ _ ?_
  induction t with
  | nil => rfl
  | cons c t ih =>
    have hc : c < 0x80 := h c (by simp)
    have := ih fun d hd => h d (by simp [hd])
    simp only [Utf8.encode, Utf8.encodeCP, hc, if_true, this, bind, Except.bind, pure, Except.pure]
    rfl

/-- **C49** (`dump`, `dumps`, `load`, `loads` with Ion text).  A Python object (or, with `sequence_as_stream`, the elements of a
sequence) that stands for Ion values, all of which text can express and none of which looks like a system value, is written
without exception, compact or pretty-printed with any whitespace as indent, with or without version marker; the output is
ASCII; `load` and `loads` of the output, as `str` or `bytes`, with any catalog, return objects that mean the same Ion values. -/
theorem C49_dump_load_text_partial (F : FloatText) (hF : TextSpec.Faithful F) (indent : Option Text) (hi : ∀ t, indent = some t → IsBlank t) (omitVersionMarker sequenceAsStream tupleAsSexp : Bool)
    (o : PyObj) (values : List Val) (hv : AreValues tupleAsSexp (argText systemTable) (topLevel sequenceAsStream o) values)
    (hsym : ∀ a ∈ namesInAll (topLevel sequenceAsStream o), SafeSymbol a) (hval : ∀ p ∈ scalarsInAll (topLevel sequenceAsStream o), SafeScalar tupleAsSexp p.1 p.2)
    (hu : ∀ n ∈ values, ¬ SystemLike n ∧ ¬ VersionLike n) (catalog : Catalog) (hcat : Catalog.Registered catalog) :
    ∃ t, dumpText F indent omitVersionMarker sequenceAsStream tupleAsSexp o = (t, .ok ()) ∧ dumpsText F indent omitVersionMarker sequenceAsStream tupleAsSexp o = .ok t ∧ Ascii t ∧
      ∃ objs, Mean objs values ∧ objs.length = values.length ∧ LoadsAs F catalog t objs := by
  obtain ⟨evs, e1, e2, -⟩ := dump_values hv
  have hsafe := dump_all_safe hv hsym hval
  rw [e1] at hsafe
  obtain ⟨items, i1, i2⟩ := text_values e2
  have hden : Denotes catalog systemTable (items.map some) values := denotes_values i2 fun n hn => (hu n hn).1
  have hgv : Given (evs ++ [ION_STREAM_END_EVENT]) (items.map some ++ []) := .values _ _ _ _ i1 hsafe (not_marker i2 fun n hn => (hu n hn).2) (.flush _ _ .nil)
  rw [List.append_nil] at hgv
  have hsent : ∃ all tops, Given all tops ∧ Denotes catalog systemTable tops values ∧
      (Sent.andThen (if omitVersionMarker then [] else [ION_VERSION_MARKER_EVENT], none) (dumpElems tupleAsSexp 0 (topLevel sequenceAsStream o))).1 ++ [ION_STREAM_END_EVENT] = all ∧
      (Sent.andThen (if omitVersionMarker then [] else [ION_VERSION_MARKER_EVENT], none) (dumpElems tupleAsSexp 0 (topLevel sequenceAsStream o))).2 = none := by
    rw [e1, andThen_ok]
    cases omitVersionMarker with
    | true => exact ⟨_, _, hgv, hden, rfl, rfl⟩
    | false => exact ⟨_, _, .marker _ _ hgv, .marker _ _ _ hden, rfl, rfl⟩
  obtain ⟨all, tops, hg, hd, h1, h2⟩ := hsent
  obtain ⟨ws, b, w, k1, k2, k3⟩ := TextWriter.given_doc hF hi hg
  have ha : Ascii (ws ++ b) := by
    have := TextWriter.ascii_run hF (ind := indent) (fun t ht => blank_ascii (hi t ht)) all {}
    rw [k1] at this
    exact this
  have hdump : dumpText F indent omitVersionMarker sequenceAsStream tupleAsSexp o = (ws ++ b, .ok ()) := by
    rw [← h1, runText_split] at k1
    unfold dumpText
    rw [indent_ok hi]
    simp only [h2]
    generalize TextWriter.runText F indent {} (Sent.andThen (if omitVersionMarker then [] else [ION_VERSION_MARKER_EVENT], none) (dumpElems tupleAsSexp 0 (topLevel sequenceAsStream o))).1 = r at k1
    obtain ⟨out, r⟩ := r
    cases r with
    | error err => simp at k1
    | ok s =>
      simp only at k1 ⊢
      generalize TextWriter.runText F indent s [ION_STREAM_END_EVENT] = r2 at k1
      obtain ⟨out2, r2⟩ := r2
      simp only [Prod.mk.injEq] at k1
      obtain ⟨k1, rfl⟩ := k1
      simp [k1]
  refine ⟨ws ++ b, hdump, ?_, ha, C48_load_text_document_partial F ws b tops (TextWriter.blank_trivia k2) k3 (fun c hc => ?_) catalog hcat values hd⟩
  · unfold dumpsText
    rw [hdump]
    exact decode_ascii ha
  · have := ha c hc
    omega

/-! ## Examples -/

/-- The object of `sample_is` meets the conditions of `C49_dump_load_text_partial`. -/
theorem sample_text : AreValues false (argText systemTable) (topLevel false sampleObj) [sampleValue] ∧ (∀ a ∈ namesInAll (topLevel false sampleObj), SafeSymbol a) ∧
    (∀ p ∈ scalarsInAll (topLevel false sampleObj), SafeScalar false p.1 p.2) ∧ ∀ n ∈ [sampleValue], ¬ SystemLike n ∧ ¬ VersionLike n := by
  have hsafe : ∀ t : Text, t.length = 1 → (∀ c ∈ t, c < 128 ∧ c ≠ 36) → TextSpec.SymSafe (.text t) := by
    intro t h1 h2
    match t, h1 with
    | [c], _ =>
      have := h2 c (by simp)
      refine ⟨?_, ?_⟩
      · intro d hd
        simp only [List.mem_singleton] at hd
        subst hd
        exact ⟨by omega, by omega⟩
      · rintro ⟨ds, hds, -⟩
        simp at hds
        omega
  refine ⟨.cons _ _ _ _ (sample_is _) .nil, ?_, ?_, ?_⟩
  · intro a ha
    have hl : namesInAll (topLevel false sampleObj) = [.text [97], .text [99], .text [100], .tok ⟨none, some 0, none⟩, .text [97]] := by decide +kernel
    rw [hl] at ha
    simp only [List.mem_cons, List.not_mem_nil, or_false] at ha
    rcases ha with rfl | rfl | rfl | rfl | rfl <;> intro s hs <;> simp [argSym, tokSym] at hs <;> subst hs
    all_goals first | trivial | exact hsafe _ rfl (by simp)
  · intro p hp
    have hl : scalarsInAll (topLevel false sampleObj) = [(.plain .int, .int 1), (.plain .bool, .bool true), (.plain .text, .str [98]),
        (.ion (some .symbol) [.text [100], .tok ⟨none, some 0, none⟩], .sym ⟨some [101], none, none⟩), (.plain (.other [.int]), .int (-7))] := rfl
    rw [hl] at hp
    simp only [List.mem_cons, List.not_mem_nil, or_false] at hp
    rcases hp with rfl | rfl | rfl | rfl | rfl
    · exact ⟨trivial, fun _ a ha => by simp [asSymbol] at ha⟩
    · exact ⟨trivial, fun _ a ha => by simp [asSymbol] at ha⟩
    · refine ⟨(hsafe [98] rfl (by simp)).1, fun _ a ha => ?_⟩
      simp only [asSymbol, Option.some.injEq] at ha
      subst ha
      intro s hs
      simp [argSym] at hs
      subst hs
      exact hsafe [98] rfl (by simp)
    · refine ⟨trivial, fun _ a ha => ?_⟩
      simp only [asSymbol, Option.some.injEq] at ha
      subst ha
      intro s hs
      simp [argSym, tokSym] at hs
      subst hs
      exact hsafe [101] rfl (by simp)
    · exact ⟨trivial, fun _ a ha => by simp [asSymbol] at ha⟩
  · intro n hn
    simp only [List.mem_singleton] at hn
    subst hn
    exact ⟨by simp [sampleValue, SystemLike], fun h => h⟩

/-- `$ion_1_0 $ion_symbol_table::{symbols:["b"]} $10` -/
def sampleItems : List (Option (Spec.Node TSym)) :=
  [none, some (.cont none [.text TEXT_ION_SYMBOL_TABLE] .struct [.cont (some (.text TEXT_SYMBOLS)) [] .list [.scalar none [] (.string [98])]]),
   some (.scalar none [] (.symbol (.sid 10)))]

/-- There is a document with these items, and it denotes the symbol `b`: `C48_load_text_document_partial` is about something. -/
theorem sample_document : (∃ ws bs, TextSpec.IsTrivia ws ∧ IsDoc Text.plainFloat bs sampleItems ∧ Ascii (ws ++ bs)) ∧
    Denotes [] systemTable sampleItems [.scalar none [] (.symbol (some [98]))] := by
  constructor
  · have hg : Given [ION_VERSION_MARKER_EVENT,
        { eventType := .containerStart, ionType := some .struct, annotations := [.text TEXT_ION_SYMBOL_TABLE] },
        { eventType := .containerStart, ionType := some .list, fieldName := some (.text TEXT_SYMBOLS) },
        { eventType := .scalar, ionType := some .string, value := .ok (some (.str [98])) },
        { eventType := .containerEnd, ionType := some .list }, { eventType := .containerEnd, ionType := some .struct },
        { eventType := .scalar, ionType := some .symbol, value := .ok (some (.sym ⟨none, some 10, none⟩)) }] sampleItems := by
      have hsafe : ∀ (e : IonEvent), (symbolsOf e).all (fun a => match a with | .text t => t.all (fun c => decide (c < 128)) && !(t[1]? == some 49) && (decide (t.length > 1)) && !(t[1]?.any fun c => decide (48 ≤ c ∧ c ≤ 57)) | .tok k => k.text.isNone) = true →
          (∀ v, e.value = .ok (some v) → TextSpec.ValSafe v) → EventSafe e := by
        intro e h1 h2
        refine ⟨fun a ha s hs => ?_, h2⟩
        have := List.all_eq_true.1 h1 a ha
        cases a with
        | tok k =>
          obtain ⟨t, sid, l⟩ := k
          cases t with
          | some => simp at this
          | none =>
            cases sid <;> simp [argSym, tokSym] at hs
            subst hs
            trivial
        | text t =>
          simp only [argSym, Option.some.injEq] at hs
          subst hs
          simp only [Bool.and_eq_true, List.all_eq_true, decide_eq_true_eq] at this
          refine ⟨fun c hc => ?_, ?_⟩
          · have := this.1.1.1 c hc
            exact ⟨by omega, by omega⟩
          · rintro ⟨ds, rfl, hne, hd⟩
            cases ds with
            | nil => exact hne rfl
            | cons c ds =>
              have hc := hd c (by simp)
              simp only [TextSpec.Digit] at hc
              have h2 := this.2
              simp at h2
              omega
      refine .marker _ _ (.values [_, _, _, _, _, _] [] [_, _] [] rfl ?_ (by simp [MarkerLike]) .nil)
      intro e he
      simp only [List.mem_cons, List.not_mem_nil, or_false] at he
      rcases he with rfl | rfl | rfl | rfl | rfl | rfl
      · exact hsafe _ (by decide +kernel) (by simp)
      · exact hsafe _ (by decide +kernel) (by simp)
      · refine hsafe _ (by decide +kernel) fun v hv => ?_
        cases hv
        intro c hc
        simp only [List.mem_singleton] at hc
        subst hc
        exact ⟨by omega, by omega⟩
      · exact hsafe _ (by decide +kernel) (by simp)
      · exact hsafe _ (by decide +kernel) (by simp)
      · refine hsafe _ (by decide +kernel) fun v hv => ?_
        cases hv
        trivial
    obtain ⟨ws, b, w, k1, k2, k3⟩ := TextWriter.given_doc Text.plainFloat_faithful (ind := none) (by intro t h; cases h) hg
    refine ⟨ws, b, TextWriter.blank_trivia k2, k3, ?_⟩
    exact (congrArg (fun r => Ascii r.1) k1).mp (TextWriter.ascii_run Text.plainFloat_faithful (by simp) _ _)
  · refine .marker _ _ _ (.table _ (systemTable ++ [(some [98], none)]) _ none [] [.cont (some (some TEXT_SYMBOLS)) [] .list [.scalar none [] (.string [98])]] _ _ rfl rfl ?_)
    exact .value _ _ _ _ _ rfl (by simp [SystemLike]; decide) (.nil _)

end Ion.Simple
