import Verif.TextWriterScalars
import Verif.Props.ManagedWriter
set_option linter.unusedSimpArgs false
/-!
# The text writer against the grammar

While the text writer runs, what it has written is a text of the grammar cut off between two events: every open container
can be continued by further values or by its closing bracket.
-/
namespace Ion.TextSpec
open Ion Ion.Spec

/-- The symbols in an event. -/
def symbolsOf (e : IonEvent) : List SymArg :=
  e.fieldName.toList ++ e.annotations ++
    match e.ionType, e.value with
    | some .symbol, .ok (some (.sym k)) => [.tok k]
    | some .symbol, .ok (some (.str t)) => [.text t]
    | _, _ => []

/-- An event that text can express. -/
structure EventSafe (e : IonEvent) : Prop where
  symbols : ∀ a ∈ symbolsOf e, ∀ s, argSym a = some s → SymSafe s
  value : ∀ v, e.value = .ok (some v) → ValSafe v

/-- The values that events describe, in terms of what text can say of their symbols. -/
def textValues (evs : List IonEvent) : Option (List (Spec.Node TSym)) := valuesOf argSym tokSym (evs.map Spec.asToken)

/-- At the top level, text takes such a symbol for a version marker. -/
def MarkerLike : Spec.Node TSym → Prop
  | .scalar _ [] (.symbol (.text t)) => IsMarkerText t
  | _ => False

/-- What a user gives to a text writer: complete values, version markers and flushes.  `none` is a version marker. -/
inductive Given : List IonEvent → List (Option (Spec.Node TSym)) → Prop
  | nil : Given [] []
  | flush (evs : List IonEvent) (items : List (Option (Spec.Node TSym))) : Given evs items → Given (ION_STREAM_END_EVENT :: evs) items
  | marker (evs : List IonEvent) (items : List (Option (Spec.Node TSym))) : Given evs items → Given (ION_VERSION_MARKER_EVENT :: evs) (none :: items)
  | values (vs evs : List IonEvent) (ns : List (Spec.Node TSym)) (items : List (Option (Spec.Node TSym))) : textValues vs = some ns →
      (∀ e ∈ vs, EventSafe e) → (∀ n ∈ ns, ¬ MarkerLike n) → Given evs items → Given (vs ++ evs) (ns.map some ++ items)

end Ion.TextSpec

namespace Ion.TextWriter
open Ion Ion.TextSpec
open Ion.Spec (CType Tree OpenNode fieldOf allSome denote ctype valuesOf)
open Ion.Spec (asToken)

/-! ## Symbols given as text -/

theorem scalar_asToken (F : FloatText) (e : IonEvent) : serializeScalar F (asToken e) = serializeScalar F e := by
  unfold asToken
  by_cases h : e.ionType = some .symbol
  · rw [if_pos h]
    split
    · next t hv => simp only [serializeScalar, h, hv, serializeValue, serializeToken]
    · rfl
  · rw [if_neg h]

theorem asToken_same (e : IonEvent) : (asToken e).eventType = e.eventType ∧ (asToken e).ionType = e.ionType ∧ (asToken e).fieldName = e.fieldName ∧
    (asToken e).annotations = e.annotations := by
  unfold asToken
  split
  · split <;> exact ⟨rfl, rfl, rfl, rfl⟩
  · exact ⟨rfl, rfl, rfl, rfl⟩

theorem step_asToken (F : FloatText) (ind : Option (List Nat)) (s : State) (e : IonEvent) : step F ind s (asToken e) = step F ind s e := by
  obtain ⟨h1, h2, h3, h4⟩ := asToken_same e
  simp only [step, delimiterChunks, indentChunks, fieldChunks, finish, h1, h2, h3, h4, scalar_asToken]

theorem run_asToken (F : FloatText) (ind : Option (List Nat)) : ∀ (evs : List IonEvent) (s : State), runText F ind s (evs.map asToken) = runText F ind s evs := by
  intro evs
  induction evs with
  | nil => intro s; rfl
  | cons e evs ih =>
    intro s
    rw [List.map_cons]
    unfold runText
    rw [step_asToken]
    split
    · rfl
    · rw [ih]

theorem safe_asToken {e : IonEvent} (h : EventSafe e) : EventSafe (asToken e) := by
  obtain ⟨h1, h2, h3, h4⟩ := asToken_same e
  by_cases hs : e.ionType = some .symbol
  · unfold asToken
    rw [if_pos hs]
    split
    · next t hv =>
      refine ⟨?_, ?_⟩
      · intro a ha s has
        simp only [symbolsOf, hs, List.mem_append, List.mem_singleton] at ha
        rcases ha with (ha | ha) | rfl
        · exact h.symbols a (by simp only [symbolsOf, List.mem_append]; exact .inl (.inl ha)) s has
        · exact h.symbols a (by simp only [symbolsOf, List.mem_append]; exact .inl (.inr ha)) s has
        · simp only [argSym, tokSym, Option.some.injEq] at has
          subst has
          exact h.symbols (.text t) (by simp [symbolsOf, hs, hv]) _ rfl
      · intro v hv'
        simp only [Except.ok.injEq, Option.some.injEq] at hv'
        subst hv'
        trivial
    · exact h
  · unfold asToken
    rw [if_neg hs]
    exact h

/-! ## Texts that are cut off -/

variable {F : FloatText}

/-- Whitespace that does not start with a vertical tab or a form feed. -/
def BGap (g : List Nat) : Prop := IsBlank g ∧ ∀ c r, g = c :: r → c ≠ 11 ∧ c ≠ 12

theorem blank_trivia {w : List Nat} (h : IsBlank w) : IsTrivia w := by
  induction w with
  | nil => exact .nil
  | cons c w ih => exact .space c w (h c (by simp)) (ih fun d hd => h d (by simp [hd]))

theorem BGap.gap {g : List Nat} (h : BGap g) : IsGap g := ⟨blank_trivia h.1, h.2⟩

theorem BGap.append {g w : List Nat} (hg : BGap g) (hw : BGap w) : BGap (g ++ w) := by
  refine ⟨fun c hc => ?_, fun c r hc => ?_⟩
  · rcases List.mem_append.1 hc with hc | hc
    · exact hg.1 c hc
    · exact hw.1 c hc
  · cases g with
    | nil => exact hw.2 c r hc
    | cons d g =>
      simp only [List.cons_append, List.cons.injEq] at hc
      exact hc.1 ▸ hg.2 d g rfl

/-- A value whose text ends with a bracket or a double quote, however it is written. -/
def Bracketed {σ : Type} : Spec.Node σ → Prop
  | .cont _ _ _ _ => True
  | .scalar _ _ (.string _) => True
  | .scalar _ _ (.clob _) => True
  | .scalar _ _ (.blob _) => True
  | .scalar _ _ _ => False

theorem Bracketed.closed {n : Spec.Node TSym} (h : Bracketed n) (v : List Nat) : Closed v n := by
  cases n with
  | cont => trivial
  | scalar f as x => cases x <;> simp only [Bracketed] at h <;> trivial

theorem Bracketed.not_symbol {f : Option TSym} {as : List TSym} {x : TSym} (h : Bracketed (.scalar f as (.symbol x) : Spec.Node TSym)) : False := h

theorem BGap.apart {n : Spec.Node TSym} {v g rest : List Nat} (hl : ¬ IsLongString v n) (hr : ∀ r, rest ≠ 47 :: r) (h : BGap g)
    (h0 : g = [] → rest = [] ∨ Bracketed n) : IsApart n v g rest :=
  ⟨h.gap, fun hn => (h0 hn).imp_right fun hb => .inl (hb.closed v), fun he => ⟨h.1, fun hn r => by
      rcases h0 hn with h0 | h0
      · rw [h0]; simp
      · unfold IsEmptySymbol at he
        split at he
        · exact h0.not_symbol.elim
        · exact he.elim⟩, fun h1 => absurd h1 hl, fun r h1 => absurd h1 (hr r),
    fun t ho => ⟨fun r hg => by have := h.1 47 (by rw [hg]; simp); simp [IsSpace] at this, fun hn c r => by
      rcases h0 hn with h0 | h0
      · rw [h0]; simp
      · obtain ⟨⟨f, as, rfl⟩, -⟩ := ho
        exact h0.not_symbol.elim⟩⟩

theorem BGap.last {n : Spec.Node TSym} {v g : List Nat} (h : BGap g) : IsApart n v g [] :=
  ⟨h.gap, fun _ => .inl rfl, fun _ => ⟨h.1, fun _ r => by simp⟩, fun _ r => by simp, fun r => by simp,
    fun _ _ => ⟨fun r hg => by have := h.1 47 (by rw [hg]; simp); simp [IsSpace] at this, fun _ c r => by simp⟩⟩

/-- Any value but a long string or an operator that begins with a slash. -/
def Plain (v : List Nat) (n : Spec.Node TSym) : Prop := ¬ IsLongString v n ∧ ∀ r, v ≠ 47 :: r

/-- A separator after any value but a long string. -/
def WSep (ty : CType) (sep rest : List Nat) : Prop := ∀ n v, ¬ IsLongString v n → (∀ r, rest ≠ 47 :: r) → IsSep n v ty sep rest

/-- Values of a container that can be continued. -/
def Ext (F : FloatText) (ty : CType) (b : List Nat) (nodes : List (Spec.Node TSym)) : Prop :=
  ∀ sep rest items, WSep ty sep rest → (∀ r, rest ≠ 47 :: r) → IsItems F ty rest items → IsItems F ty (b ++ (sep ++ rest)) (nodes ++ items)

/-- What has been written in an open container; `w` says whether there are values. -/
def Level (F : FloatText) (ty : CType) (w : Bool) (bytes : List Nat) (nodes : List (Spec.Node TSym)) : Prop :=
  (w = false ∧ bytes = [] ∧ nodes = []) ∨ (w = true ∧ ∃ pad b, bytes = pad ++ b ∧ IsBlank pad ∧ Ext F ty b nodes)

/-- The last item is a value that ends with a bracket or a double quote. -/
def EndsBracketed {σ : Type} (items : List (Option (Spec.Node σ))) : Prop := ∃ before n, items = before ++ [some n] ∧ Bracketed n

theorem endsBracketed_snoc {σ : Type} {items : List (Option (Spec.Node σ))} {n : Option (Spec.Node σ)} (h : EndsBracketed (items ++ [n])) : EndsBracketed [n] := by
  obtain ⟨before, m, he, hm⟩ := h
  obtain ⟨-, h2⟩ := List.append_inj' he rfl
  simp only [List.cons.injEq, and_true] at h2
  exact ⟨[], m, by rw [h2]; rfl, hm⟩

theorem endsBracketed_one {σ : Type} {n : Option (Spec.Node σ)} (h : EndsBracketed [n]) : ∃ m, n = some m ∧ Bracketed m := by
  obtain ⟨before, m, he, hm⟩ := h
  obtain ⟨-, h2⟩ := List.append_inj' (s₁ := []) he rfl
  simp only [List.cons.injEq, and_true] at h2
  exact ⟨m, h2, hm⟩

/-- A document that can be continued: after whitespace, or directly if it ends with a bracket or a double quote. -/
def ExtDoc (F : FloatText) (b : List Nat) (items : List (Option (Spec.Node TSym))) : Prop :=
  ∀ g rest items', BGap g → (g = [] → rest = [] ∨ EndsBracketed items) → IsDoc F rest items' → IsDoc F (b ++ (g ++ rest)) (items ++ items')

/-- What has been written at the top level. -/
def Top (F : FloatText) (w : Bool) (bytes : List Nat) (items : List (Option (Spec.Node TSym))) : Prop :=
  (w = false ∧ bytes = [] ∧ items = []) ∨
  (w = true ∧ ∃ pad b, bytes = pad ++ b ∧ BGap pad ∧ ((b = [] ∧ items = []) ∨ ExtDoc F b items))

/-- Where the next value stands. -/
def place (opens : List (OpenNode TSym)) : Place :=
  match opens with
  | [] => none
  | o :: _ => some o.ty

/-- The state of the writer, the values so far, and what has been written. -/
inductive Inv (F : FloatText) (pre : List (Option (Spec.Node TSym))) : State → Tree TSym → List Nat → Prop
  | top (w : Bool) (bytes : List Nat) (cur : List (Spec.Node TSym)) : Top F w bytes (pre ++ cur.map some) → Inv F pre ⟨[], w⟩ ⟨cur, []⟩ bytes
  | inner (fs : List (IonType × Bool)) (tw : Bool) (before cur : List (Spec.Node TSym)) (opens : List (OpenNode TSym)) (out0 name anns bytes : List Nat)
      (f : Option TSym) (a : List TSym) (ty : CType) (w : Bool) :
      (∀ v n, IsValue F (place opens) v n → Plain v n → Inv F pre ⟨fs, tw⟩ ⟨before ++ [n], opens⟩ (out0 ++ v)) →
      IsName (place opens) name f → IsAnns anns a → Level F ty w bytes cur →
      Inv F pre ⟨(ty.ty, w) :: fs, tw⟩ ⟨cur, ⟨f, a, ty, before⟩ :: opens⟩ (out0 ++ (name ++ (anns ++ opening ty :: bytes)))

theorem ext_one {ty : CType} {v : List Nat} {n : Spec.Node TSym} (h : IsValue F (some ty) v n) (hl : Plain v n) : Ext F ty v [n] :=
  fun sep rest items hs hr hi => .cons ty v sep rest n items h (hs n v hl.1 hr) hi

theorem ext_snoc {ty : CType} {b sep v : List Nat} {nodes : List (Spec.Node TSym)} {n : Spec.Node TSym} (h : Ext F ty b nodes) (hsep : ∀ rest, WSep ty sep rest)
    (hv : IsValue F (some ty) v n) (hl : Plain v n) : Ext F ty (b ++ (sep ++ v)) (nodes ++ [n]) := by
  intro sep' rest items hs hr hi
  have hne : ∀ r, v ++ (sep' ++ rest) ≠ 47 :: r := by
    obtain ⟨c, l, rfl, _⟩ := TextReader.value_start hv
    intro r h1
    simp only [List.cons_append, List.cons.injEq] at h1
    exact hl.2 l (by rw [h1.1])
  have := h sep (v ++ (sep' ++ rest)) (n :: items) (hsep _) hne (.cons ty v sep' rest n items hv (hs n v hl.1 hr) hi)
  simpa [List.append_assoc] using this

theorem extDoc_one {v : List Nat} {n : Spec.Node TSym} (h : IsValue F none v n) (hl : Plain v n) : ExtDoc F v [some n] :=
  fun g rest items hg h0 hi => .value v g rest n items h (hg.apart hl.1 (fun r h1 => by
    have := (TextReader.doc_start hi 47 r h1).1
    exact absurd this (by decide)) fun hn => (h0 hn).imp_right fun h => by
      obtain ⟨m, hm, hb⟩ := endsBracketed_one h
      simp only [Option.some.injEq] at hm
      exact hm ▸ hb) hi

theorem extDoc_marker : ExtDoc F (asc ['$','i','o','n','_','1','_','0']) [none] :=
  fun g rest items hg h0 hi => .marker g rest items hg.gap (fun hn => .inl ((h0 hn).elim id fun h => by
    obtain ⟨m, hm, -⟩ := endsBracketed_one h
    cases hm)) hi

theorem extDoc_snoc {b g v : List Nat} {items : List (Option (Spec.Node TSym))} {n : Option (Spec.Node TSym)} (h : ExtDoc F b items) (hg : BGap g) (hne : g ≠ [])
    (hv : ExtDoc F v [n]) : ExtDoc F (b ++ (g ++ v)) (items ++ [n]) := by
  intro g' rest items' hg' h0 hi
  have := h g _ _ hg (fun h => absurd h hne) (hv g' rest items' hg' (fun hn => (h0 hn).imp_right endsBracketed_snoc) hi)
  simpa [List.append_assoc] using this

theorem top_snoc {w : Bool} {bytes sep v : List Nat} {items : List (Option (Spec.Node TSym))} {n : Option (Spec.Node TSym)} (h : Top F w bytes items)
    (h0 : w = false → sep = []) (h1 : w = true → BGap sep ∧ sep ≠ []) (hv : ExtDoc F v [n]) : Top F true (bytes ++ (sep ++ v)) (items ++ [n]) := by
  rcases h with ⟨rfl, rfl, rfl⟩ | ⟨rfl, pad, b, rfl, hp, hb⟩
  · rw [h0 rfl]
    exact .inr ⟨rfl, [], v, rfl, ⟨by simp [IsBlank], by simp⟩, .inr hv⟩
  · obtain ⟨hg, hne⟩ := h1 rfl
    refine .inr ⟨rfl, ?_⟩
    rcases hb with ⟨rfl, rfl⟩ | hb
    · exact ⟨pad ++ sep, v, by simp, hp.append hg, .inr hv⟩
    · exact ⟨pad, b ++ (sep ++ v), by simp, hp, .inr (extDoc_snoc hb hg hne hv)⟩

theorem level_snoc {ty : CType} {w : Bool} {bytes sep v : List Nat} {nodes : List (Spec.Node TSym)} {n : Spec.Node TSym} (h : Level F ty w bytes nodes)
    (h0 : w = false → IsBlank sep) (h1 : w = true → ∀ rest, WSep ty sep rest) (hv : IsValue F (some ty) v n) (hl : Plain v n) : Level F ty true (bytes ++ (sep ++ v)) (nodes ++ [n]) := by
  rcases h with ⟨rfl, rfl, rfl⟩ | ⟨rfl, pad, b, rfl, hp, hb⟩
  · exact .inr ⟨rfl, sep, v, rfl, h0 rfl, ext_one hv hl⟩
  · exact .inr ⟨rfl, pad, b ++ (sep ++ v), by simp, hp, ext_snoc hb (h1 rfl) hv hl⟩

/-! ## Delimiters and indentation -/

/-- The indentation, as given to `raw_writer`, consists of Ion whitespace. -/
def GoodIndent (ind : Option (List Nat)) : Prop := ∀ t, ind = some t → IsBlank t

theorem blank_append {a b : List Nat} (ha : IsBlank a) (hb : IsBlank b) : IsBlank (a ++ b) := by
  intro c hc
  rcases List.mem_append.1 hc with hc | hc
  · exact ha c hc
  · exact hb c hc

theorem blank_copies {t : List Nat} (h : IsBlank t) (n : Nat) : IsBlank (List.replicate n t).flatten := by
  intro c hc
  obtain ⟨l, hl, hc⟩ := List.mem_flatten.1 hc
  rw [List.eq_of_mem_replicate hl] at hc
  exact h c hc

theorem gap_newline {w : List Nat} (h : IsBlank w) : BGap (10 :: w) := by
  refine ⟨?_, ?_⟩
  · intro c hc
    rcases List.mem_cons.1 hc with rfl | hc
    · right; omega
    · exact h c hc
  · intro c r hc
    simp only [List.cons.injEq] at hc
    omega

theorem gap_nil : BGap [] := ⟨by simp [IsBlank], by simp⟩
theorem gap_space : BGap [32] := by
  refine ⟨by simp [IsBlank, IsSpace], ?_⟩
  intro c r hc
  simp only [List.cons.injEq] at hc
  omega

/-- Newline and indentation: nothing, or a newline and whitespace. -/
theorem indent_text {ind : Option (List Nat)} (hi : GoodIndent ind) (s : State) (e : IonEvent) :
    ((indentChunks ind s e).flatten = [] ∧ (ind.isSome = true → (s.written || !s.frames.isEmpty) = true → e.eventType = .streamEnd)) ∨
    (ind.isSome = true ∧ ∃ w, IsBlank w ∧ (indentChunks ind s e).flatten = 10 :: w ∧ (s.written || !s.frames.isEmpty) = true) := by
  unfold indentChunks
  cases ind with
  | none => exact .inl ⟨rfl, by simp⟩
  | some t =>
    simp only
    by_cases h : ((s.written || !s.frames.isEmpty) && decide (e.eventType ≠ .streamEnd)) = true
    · rw [if_pos h]
      simp only [Bool.and_eq_true] at h
      refine .inr ⟨rfl, ?_⟩
      generalize s.frames.length - (if e.eventType = .containerEnd then 1 else 0) = m
      split
      · exact ⟨_, blank_copies (hi t rfl) _, by rw [List.flatten_cons, List.flatten_cons, List.flatten_nil, List.append_nil]; rfl, h.1⟩
      · exact ⟨[], by simp [IsBlank], rfl, h.1⟩
    · rw [if_neg h]
      refine .inl ⟨rfl, fun _ hw => ?_⟩
      rw [hw, Bool.true_and] at h
      simpa using h

/-- What stands before an event at the top level. -/
theorem before_top {ind : Option (List Nat)} (hi : GoodIndent ind) {w : Bool} {e : IonEvent} (he : e.eventType ≠ .streamEnd) (he' : e.eventType ≠ .containerEnd) :
    ∃ sep, (delimiterChunks ind.isSome ⟨[], w⟩ e ++ indentChunks ind ⟨[], w⟩ e).flatten = sep ∧ (w = false → sep = []) ∧ (w = true → BGap sep ∧ sep ≠ []) := by
  refine ⟨_, rfl, ?_, ?_⟩
  · rintro rfl
    unfold delimiterChunks indentChunks
    cases ind <;> simp [State.written]
  · rintro rfl
    rw [List.flatten_append]
    rcases indent_text hi ⟨[], true⟩ e with ⟨h1, h2⟩ | ⟨h1, w, h2, h3, h4⟩
    · rw [h1, List.append_nil]
      have hn : ind.isSome = false := by
        cases ind with
        | none => rfl
        | some t => exact absurd (h2 rfl (by simp [State.written])) he
      have : delimiterChunks ind.isSome ⟨[], true⟩ e = [[32]] := by
        simp [delimiterChunks, State.written, he, he', hn]
      rw [this]
      exact ⟨gap_space, by simp⟩
    · have : delimiterChunks ind.isSome ⟨[], true⟩ e = [] := by
        simp [delimiterChunks, State.written, he, he', h1]
      rw [this, h3]
      exact ⟨gap_newline h2, by simp⟩

theorem cty_sexp (ty : CType) : ty.ty = .sexp ↔ ty = .sexp := by cases ty <;> simp [Spec.CType.ty]

/-- What stands before a value in a container. -/
theorem before_inner {ind : Option (List Nat)} (hi : GoodIndent ind) {fs : List (IonType × Bool)} {ty : CType} {w tw : Bool} {e : IonEvent} (he : e.eventType ≠ .streamEnd)
    (he' : e.eventType ≠ .containerEnd) :
    ∃ sep, (delimiterChunks ind.isSome ⟨(ty.ty, w) :: fs, tw⟩ e ++ indentChunks ind ⟨(ty.ty, w) :: fs, tw⟩ e).flatten = sep ∧ (w = false → IsBlank sep) ∧ (w = true → ∀ rest, WSep ty sep rest) := by
  refine ⟨_, rfl, ?_, ?_⟩
  · rintro rfl
    have : delimiterChunks ind.isSome ⟨(ty.ty, false) :: fs, tw⟩ e = [] := by simp [delimiterChunks, State.written]
    rw [this, List.nil_append]
    rcases indent_text hi ⟨(ty.ty, false) :: fs, tw⟩ e with ⟨h1, h2⟩ | ⟨h1, w, h2, h3, h4⟩
    · rw [h1]; simp [IsBlank]
    · rw [h3]; exact (gap_newline h2).1
  · rintro rfl rest
    rw [List.flatten_append]
    by_cases hs : ty = .sexp
    · subst hs
      rcases indent_text hi ⟨(CType.sexp.ty, true) :: fs, tw⟩ e with ⟨h1, h2⟩ | ⟨h1, w, h2, h3, h4⟩
      · rw [h1, List.append_nil]
        have hn : ind.isSome = false := by
          cases ind with
          | none => rfl
          | some t => exact absurd (h2 rfl (by simp [State.written])) he
        have : delimiterChunks ind.isSome ⟨(CType.sexp.ty, true) :: fs, tw⟩ e = [[32]] := by
          simp [delimiterChunks, State.written, he, he', hn, delimiter, Spec.CType.ty]
        rw [this]
        exact fun _ _ hl hr => .sexp _ _ (gap_space.apart hl hr (by simp))
      · have : delimiterChunks ind.isSome ⟨(CType.sexp.ty, true) :: fs, tw⟩ e = [] := by
          simp [delimiterChunks, State.written, he, he', h1, delimiter, Spec.CType.ty]
        rw [this, h3]
        exact fun _ _ hl hr => .sexp _ _ ((gap_newline h2).apart hl hr (by simp))
    · have hd : delimiterChunks ind.isSome ⟨(ty.ty, true) :: fs, tw⟩ e = [[44]] := by
        cases ty <;> first | exact absurd rfl hs | simp [delimiterChunks, State.written, he, he', delimiter, Spec.CType.ty]
      rw [hd]
      rcases indent_text hi ⟨(ty.ty, true) :: fs, tw⟩ e with ⟨h1, h2⟩ | ⟨h1, w, h2, h3, h4⟩
      · rw [h1]
        exact fun _ _ _ _ => .comma ty [] [] rest hs gap_nil.last .nil
      · rw [h3]
        exact fun _ _ _ _ => .comma ty [] (10 :: w) rest hs gap_nil.last (gap_newline h2).gap.1

/-- What stands before a closing bracket. -/
theorem before_end {ind : Option (List Nat)} (hi : GoodIndent ind) {s : State} {e : IonEvent} (he : e.eventType = .containerEnd) :
    BGap (delimiterChunks ind.isSome s e ++ indentChunks ind s e).flatten := by
  have : delimiterChunks ind.isSome s e = [] := by simp [delimiterChunks, he]
  rw [this, List.nil_append]
  rcases indent_text hi s e with ⟨h1, h2⟩ | ⟨h1, w, h2, h3, h4⟩
  · rw [h1]; exact gap_nil
  · rw [h3]; exact gap_newline h2

/-! ## Names and annotations -/

theorem annotations_text {as : List SymArg} {a : List TSym} (h : allSome argSym as = some a) (hs : ∀ x ∈ as, ∀ s, argSym x = some s → SymSafe s) :
    ∃ cs, annotationChunks as = (cs, none) ∧ IsAnns cs.flatten a := by
  induction as generalizing a with
  | nil =>
    simp only [allSome, Option.some.injEq] at h
    subst h
    exact ⟨[], rfl, .nil⟩
  | cons x as ih =>
    simp only [allSome] at h
    split at h
    · next b bs h1 h2 =>
      simp only [Option.some.injEq] at h
      subst h
      obtain ⟨cs, i1, i2⟩ := ih h2 (fun y hy => hs y (by simp [hy]))
      obtain ⟨bs', j1, j2⟩ := symArg_text h1 (hs x (by simp) b h1) [58, 58]
      refine ⟨(bs' ++ [58, 58]) :: cs, by simp [annotationChunks, j1, i1], ?_⟩
      have := IsAnns.cons bs' [] [] _ b bs j2 gap_nil.gap (by simp [IsBlank]) (by simp [IsBlank]) i2
      simpa using this
    · cases h

/-- The frames of the writer are the open containers. -/
theorem inv_frames {pre : List (Option (Spec.Node TSym))} {s : State} {t : Tree TSym} {out : List Nat} (h : Inv F pre s t out) : s.frames.map Prod.fst = t.opens.map fun o => o.ty.ty := by
  induction h with
  | top => rfl
  | inner fs tw before cur opens out0 name anns bytes f a ty w h1 h2 h3 h4 ih =>
    have key : ∃ v n, IsValue F (place opens) v n ∧ Plain v n := by
      cases opens with
      | nil => exact ⟨_, _, .scalar none [] [] _ none [] _ (.none none (by simp)) .nil .null (fun _ _ => TextWriter.not_marker (by decide)), id, by simp [asc]⟩
      | cons o os =>
        cases ho : o.ty with
        | list => exact ⟨_, _, .scalar _ [] [] _ none [] _ (.none _ (by simp [place, ho])) .nil .null (by simp [place]), id, by simp [asc]⟩
        | sexp => exact ⟨_, _, .scalar _ [] [] _ none [] _ (.none _ (by simp [place, ho])) .nil .null (by simp [place]), id, by simp [asc]⟩
        | struct =>
          have hn : IsName (place (o :: os)) (36 :: natDigits 0 ++ ([] ++ 58 :: [])) (some (.sid 0)) := by
            simp only [place, ho]
            exact .some _ [] [] _ (.sym _ _ (sid_text 0)) gap_nil.gap (by simp [IsBlank]) (by simp [IsBlank])
          exact ⟨_, _, .scalar _ _ [] _ _ [] _ hn .nil .null (by simp [place]), id, by simp [asc]⟩
    obtain ⟨v, n, hv, hl⟩ := key
    have := ih v n hv hl
    simp only at this
    simp [this]

theorem field_text {ind : Option (List Nat)} {s : State} {t : Tree TSym} (hf : s.frames.map Prod.fst = t.opens.map fun o => o.ty.ty) {e : IonEvent} (hb : e.eventType.beginsValue = true)
    {f : Option TSym} (h : fieldOf argSym t.inStruct e.fieldName = some f) (hs : ∀ x ∈ e.fieldName.toList, ∀ s, argSym x = some s → SymSafe s) :
    ∃ fc, fieldChunks ind.isSome s e = .ok fc ∧ IsName (place t.opens) fc.flatten f := by
  obtain ⟨frames, tw⟩ := s
  obtain ⟨cur, opens⟩ := t
  simp only at hf
  cases opens with
  | nil =>
    have : frames = [] := by simpa using hf
    subst this
    simp only [fieldOf, Tree.inStruct, Bool.false_eq_true, if_false, Option.some.injEq] at h
    subst h
    exact ⟨[], rfl, .none _ (by simp [place])⟩
  | cons o os =>
    cases frames with
    | nil => simp at hf
    | cons fr fs =>
      obtain ⟨fty, w⟩ := fr
      simp only [List.map_cons, List.cons.injEq] at hf
      obtain ⟨hf1, -⟩ := hf
      subst hf1
      cases ho : o.ty with
      | list =>
        simp only [fieldOf, Tree.inStruct, ho, reduceCtorEq, decide_false, Bool.false_eq_true, if_false, Option.some.injEq] at h
        subst h
        exact ⟨[], rfl, .none _ (by simp [place, ho])⟩
      | sexp =>
        simp only [fieldOf, Tree.inStruct, ho, reduceCtorEq, decide_false, Bool.false_eq_true, if_false, Option.some.injEq] at h
        subst h
        exact ⟨[], rfl, .none _ (by simp [place, ho])⟩
      | struct =>
        simp only [fieldOf, Tree.inStruct, ho, decide_true, if_true, Option.map_eq_some_iff, Option.bind_eq_some_iff] at h
        obtain ⟨s, ⟨x, hx, has⟩, rfl⟩ := h
        obtain ⟨bs, j1, j2⟩ := symArg_text has (hs x (by simp [hx]) s has) [58]
        simp only [fieldChunks, Spec.CType.ty, hb, if_true, hx, j1]
        refine ⟨_, rfl, ?_⟩
        simp only [place, ho]
        cases ind with
        | none =>
          have := IsName.some bs [] [] s (.sym _ _ j2) gap_nil.gap (by simp [IsBlank]) (by simp [IsBlank])
          simpa using this
        | some t =>
          have := IsName.some bs [] [32] s (.sym _ _ j2) gap_nil.gap (by simp [IsBlank]) gap_space.1
          simpa using this

/-! ## Events -/

/-- Before a value. -/
theorem slot {ind : Option (List Nat)} (hi : GoodIndent ind) {pre : List (Option (Spec.Node TSym))} {s : State} {t : Tree TSym} {out : List Nat} (h : Inv F pre s t out) {e : IonEvent}
    (hb : e.eventType.beginsValue = true) {v : List Nat} {n : Spec.Node TSym} (hv : IsValue F (place t.opens) v n) (hl : Plain v n) :
    Inv F pre s.setWritten ⟨t.cur ++ [n], t.opens⟩ (out ++ ((delimiterChunks ind.isSome s e ++ indentChunks ind s e).flatten ++ v)) := by
  have he : e.eventType ≠ .streamEnd := by intro h; rw [h] at hb; cases hb
  have he' : e.eventType ≠ .containerEnd := by intro h; rw [h] at hb; cases hb
  cases h with
  | top w bytes cur htop =>
    obtain ⟨sep, hsep, h0, h1⟩ := before_top hi (w := w) he he'
    rw [hsep]
    have := top_snoc htop h0 h1 (extDoc_one hv hl)
    refine .top true _ _ ?_
    simpa using this
  | inner fs tw before cur opens out0 name anns bytes f a ty w h1 h2 h3 h4 =>
    obtain ⟨sep, hsep, k0, k1⟩ := before_inner hi (fs := fs) (ty := ty) (w := w) (tw := tw) he he'
    rw [hsep]
    have := Inv.inner fs tw before (cur ++ [n]) opens out0 name anns _ f a ty true h1 h2 h3 (level_snoc h4 k0 k1 hv hl)
    simpa [State.setWritten, List.append_assoc] using this

theorem open_closing (ty : CType) : openMark ty.ty = [opening ty] ∧ closeMark ty.ty = [closing ty] ∧ ty.ty.isContainer = true := by
  cases ty <;> exact ⟨rfl, rfl, rfl⟩

theorem ctype_some {ty : IonType} {c : CType} (h : ctype ty = some c) : c.ty = ty := by
  cases ty <;> simp only [ctype, Option.some.injEq, reduceCtorEq] at h <;> subst h <;> rfl

/-- One event. -/
theorem step_inv (hF : Faithful F) {ind : Option (List Nat)} (hi : GoodIndent ind) {pre : List (Option (Spec.Node TSym))} {s : State} {t t' : Tree TSym} {out : List Nat} (h : Inv F pre s t out)
    {e : IonEvent} (hs : EventSafe e) (ht : t.step argSym tokSym e = some t') (hm : ∀ n, t.opens = [] → t'.cur = t.cur ++ [n] → ¬ MarkerLike n) :
    ∃ cs d w s', step F ind s e = (cs, .ok ((w, d), s')) ∧ Inv F pre s' t' (out ++ (cs.flatten ++ d)) := by
  have hfr := inv_frames h
  have hfs : ∀ x ∈ e.fieldName.toList, ∀ s, argSym x = some s → SymSafe s := fun x hx => hs.symbols x (by simp only [symbolsOf, List.mem_append]; exact .inl (.inl hx))
  have has : ∀ x ∈ e.annotations, ∀ s, argSym x = some s → SymSafe s := fun x hx => hs.symbols x (by simp only [symbolsOf, List.mem_append]; exact .inl (.inr hx))
  unfold Tree.step at ht
  split at ht
  · next hty =>
    have hb : e.eventType.beginsValue = true := by rw [hty]; rfl
    split at ht
    · next f a ty v hf ha hit hval =>
      rw [Option.map_eq_some_iff] at ht
      obtain ⟨x, hx, rfl⟩ := ht
      obtain ⟨fc, f1, f2⟩ := field_text (ind := ind) hfr hb hf hfs
      obtain ⟨cs, a1, a2⟩ := annotations_text ha has
      have hser : ∃ bs, serializeScalar F e = .ok bs ∧ IsScalarText F bs x ∧ ((∃ s, x = .symbol s) → IsMarkerText bs → ∃ t, x = .symbol (.text t) ∧ IsMarkerText t) := by
        simp only [serializeScalar, hval, hit]
        cases v with
        | none =>
          simp only [denote, Option.some.injEq] at hx
          subst hx
          exact ⟨_, rfl, null_text F ty, by rintro ⟨s, hs⟩; cases hs⟩
        | some v =>
          refine value_text hF hx (hs.value v hval) ?_
          rintro s rfl
          cases ty <;> cases v <;> simp only [denote, Option.some.injEq, reduceCtorEq, Option.map_eq_some_iff] at hx
          case symbol.sym k =>
            obtain ⟨s', hk, hs'⟩ := hx
            simp only [Spec.Scalar.symbol.injEq] at hs'
            subst hs'
            exact hs.symbols (.tok k) (by simp [symbolsOf, hit, hval]) s' hk
      obtain ⟨bs, s1, s2, s3⟩ := hser
      have hend : ∀ tx, x = .string tx → ∃ l, bs = l ++ [34] := by
        rintro tx rfl
        simp only [serializeScalar, hval, hit] at s1
        cases v with
        | none => simp [denote] at hx
        | some v => exact string_value_text hx (hs.value v hval) s1
      refine ⟨delimiterChunks ind.isSome s e ++ indentChunks ind s e ++ fc ++ cs, bs, if s.frames.isEmpty then .complete else .needsInput, s.setWritten, ?_, ?_⟩
      · simp only [step, f1, hb, if_true, a1, finish, hty, s1]
        rfl
      · have hval' : IsValue F (place t.opens) (fc.flatten ++ (cs.flatten ++ bs)) (.scalar f a x) := by
          refine .scalar _ _ _ _ _ _ _ f2 a2 s2 ?_
          intro hp ha0 hmk
          subst ha0
          have ho : t.opens = [] := by
            cases ho : t.opens with
            | nil => rfl
            | cons o os => rw [ho] at hp; simp [place] at hp
          obtain ⟨tx, rfl, htx⟩ := s3 (marker_symbol s2 hmk) hmk
          exact hm _ ho rfl htx
        have hlong : ¬ IsLongString (fc.flatten ++ (cs.flatten ++ bs)) (.scalar f a x) := by
          intro hl
          cases x with
          | string tx =>
            simp only [IsLongString] at hl
            obtain ⟨l, hl'⟩ := hend tx rfl
            obtain ⟨m, hm⟩ := hl
            rw [hl', ← List.append_assoc, ← List.append_assoc] at hm
            have := (List.append_inj' hm rfl).2
            simp at this
          | _ => exact hl
        have hns : ∀ r, fc.flatten ++ (cs.flatten ++ bs) ≠ 47 :: r := by
          intro r h1
          have h2 := TextReader.head_ne_slash (m := []) (TextReader.name_start f2 (TextReader.anns_start a2 (TextReader.scalar_start s2)))
          rw [h1] at h2
          exact h2 rfl
        have := slot hi h hb hval' ⟨hlong, hns⟩
        simpa [List.append_assoc] using this
    · cases ht
  · next hty =>
    have hb : e.eventType.beginsValue = true := by rw [hty]; rfl
    split at ht
    · next f a ty hf ha hit =>
      simp only [Option.some.injEq] at ht
      subst ht
      rw [Option.bind_eq_some_iff] at hit
      obtain ⟨ity, hit, hct⟩ := hit
      have hcty := ctype_some hct
      subst hcty
      obtain ⟨o1, o2, o3⟩ := open_closing ty
      obtain ⟨fc, f1, f2⟩ := field_text (ind := ind) hfr hb hf hfs
      obtain ⟨cs, a1, a2⟩ := annotations_text ha has
      refine ⟨delimiterChunks ind.isSome s e ++ indentChunks ind s e ++ fc ++ cs, [opening ty], .needsInput, { s.setWritten with frames := (ty.ty, false) :: s.setWritten.frames }, ?_, ?_⟩
      · simp only [step, f1, hb, if_true, a1, finish, hty, hit, o3, o1]
        rfl
      · have := Inv.inner (F := F) (pre := pre) s.setWritten.frames s.setWritten.top t.cur [] t.opens (out ++ (delimiterChunks ind.isSome s e ++ indentChunks ind s e).flatten)
          fc.flatten cs.flatten [] f a ty false (fun v n hv hl => by
            have := slot hi h hb hv hl
            simpa [List.append_assoc] using this) f2 a2 (.inl ⟨rfl, rfl, rfl⟩)
        simpa [List.append_assoc] using this
    · cases ht
  · next hty =>
    split at ht
    · next o os ho =>
      simp only [Option.some.injEq] at ht
      subst ht
      cases h with
      | top => simp at ho
      | inner fs tw before cur opens out0 name anns bytes f a ty w h1 h2 h3 h4 =>
        simp only [List.cons.injEq] at ho
        obtain ⟨rfl, rfl⟩ := ho
        obtain ⟨o1, o2, o3⟩ := open_closing ty
        have hgap := before_end hi (s := ⟨(ty.ty, w) :: fs, tw⟩) hty
        refine ⟨delimiterChunks ind.isSome ⟨(ty.ty, w) :: fs, tw⟩ e ++ indentChunks ind ⟨(ty.ty, w) :: fs, tw⟩ e, [closing ty], if fs.isEmpty then .complete else .needsInput, ⟨fs, tw⟩, ?_, ?_⟩
        · have hb : e.eventType.beginsValue = false := by rw [hty]; rfl
          have hfc : fieldChunks ind.isSome ⟨(ty.ty, w) :: fs, tw⟩ e = .ok [] := by
            cases ty <;> simp [fieldChunks, hb, Spec.CType.ty]
          simp only [step, hfc, hb, Bool.false_eq_true, if_false, List.append_nil, finish, hty, o2]
          simp [IonEventType.beginsValue]
        · generalize (delimiterChunks ind.isSome ⟨(ty.ty, w) :: fs, tw⟩ e ++ indentChunks ind ⟨(ty.ty, w) :: fs, tw⟩ e).flatten = g at *
          have key : ∃ W body, bytes ++ g = W ++ body ∧ IsBlank W ∧ IsItems F ty body cur := by
            rcases h4 with ⟨rfl, rfl, rfl⟩ | ⟨rfl, pad, b, rfl, hp, hb⟩
            · exact ⟨g, [], by simp, hgap.1, .nil ty⟩
            · have := hb g [] [] (fun _ _ _ _ => .last ty g hgap.last) (by simp) (.nil ty)
              rw [List.append_nil, List.append_nil] at this
              exact ⟨pad, b ++ g, by simp, hp, this⟩
          obtain ⟨W, body, hW, hb, hitems⟩ := key
          have hns : ∀ r, name ++ (anns ++ opening ty :: (W ++ (body ++ [closing ty]))) ≠ 47 :: r := by
            intro r k1
            have k2 := TextReader.head_ne_slash (m := []) (TextReader.name_start h2 (TextReader.anns_start h3 (rest := opening ty :: (W ++ (body ++ [closing ty]))) ⟨opening ty, _, rfl, by cases ty <;> decide⟩))
            rw [k1] at k2
            exact k2 rfl
          have := h1 _ _ (.cont _ name anns W body f a ty cur h2 h3 (blank_trivia hb) (fun _ _ => hb) hitems) ⟨id, hns⟩
          have heq : out0 ++ (name ++ (anns ++ opening ty :: bytes)) ++ (g ++ [closing ty]) = out0 ++ (name ++ (anns ++ opening ty :: (W ++ (body ++ [closing ty])))) := by
            have : bytes ++ (g ++ [closing ty]) = W ++ (body ++ [closing ty]) := by rw [← List.append_assoc, hW, List.append_assoc]
            simp only [List.append_assoc, List.cons_append, this]
          rw [heq]
          exact this
    · cases ht
  · cases ht

/-- The values at the top level. -/
def topNodes : List (OpenNode TSym) → List (Spec.Node TSym) → List (Spec.Node TSym)
  | [], cur => cur
  | [o], _ => o.before
  | _ :: o :: os, cur => topNodes (o :: os) cur

theorem topNodes_cons (o : OpenNode TSym) (opens : List (OpenNode TSym)) (cur : List (Spec.Node TSym)) : topNodes (o :: opens) cur = topNodes opens o.before := by
  induction opens generalizing o cur with
  | nil => rfl
  | cons o' os ih => 
    rw [topNodes, ih o' cur, ih o' o.before]

theorem step_top {t t' : Tree TSym} {e : IonEvent} (h : t.step argSym tokSym e = some t') : topNodes t.opens t.cur <+: topNodes t'.opens t'.cur := by
  unfold Tree.step at h
  split at h
  · split at h
    · rw [Option.map_eq_some_iff] at h
      obtain ⟨x, -, rfl⟩ := h
      simp only
      cases t.opens with
      | nil => exact List.prefix_append _ _
      | cons o os => rw [topNodes_cons, topNodes_cons]; exact List.prefix_refl _
    · cases h
  · split at h
    · simp only [Option.some.injEq] at h
      subst h
      rw [topNodes_cons]
      exact List.prefix_refl _
    · cases h
  · split at h
    · next o os ho =>
      simp only [Option.some.injEq] at h
      subst h
      rw [ho, topNodes_cons]
      cases os with
      | nil => exact List.prefix_append _ _
      | cons o' os => rw [topNodes_cons, topNodes_cons]; exact List.prefix_refl _
    · cases h
  · cases h

theorem run_top {evs : List IonEvent} : ∀ {t t' : Tree TSym}, t.run argSym tokSym evs = some t' → topNodes t.opens t.cur <+: topNodes t'.opens t'.cur := by
  induction evs with
  | nil => intro t t' h; simp only [Tree.run, Option.some.injEq] at h; subst h; exact List.prefix_refl _
  | cons e evs ih =>
    intro t t' h
    simp only [Tree.run, Option.bind_eq_some_iff] at h
    obtain ⟨t1, h1, h2⟩ := h
    exact (step_top h1).trans (ih h2)

/-- Many events. -/
theorem run_inv (hF : Faithful F) {ind : Option (List Nat)} (hi : GoodIndent ind) {pre : List (Option (Spec.Node TSym))} {evs : List IonEvent} : ∀ {s : State} {t t' : Tree TSym} {out : List Nat},
    Inv F pre s t out → (∀ e ∈ evs, EventSafe e) → t.run argSym tokSym evs = some t' → (∀ n ∈ topNodes t'.opens t'.cur, ¬ MarkerLike n) →
    ∀ rest, ∃ d s', runText F ind s (evs ++ rest) = (d ++ (runText F ind s' rest).1, (runText F ind s' rest).2) ∧ Inv F pre s' t' (out ++ d) := by
  induction evs with
  | nil =>
    intro s t t' out h _ ht _ rest
    simp only [Tree.run, Option.some.injEq] at ht
    subst ht
    exact ⟨[], s, rfl, by rw [List.append_nil]; exact h⟩
  | cons e evs ih =>
    intro s t t' out h hs ht hm rest
    simp only [Tree.run, Option.bind_eq_some_iff] at ht
    obtain ⟨t1, h1, h2⟩ := ht
    obtain ⟨cs, d, w, s1, k1, k2⟩ := step_inv hF hi h (hs e (by simp)) h1 (by
      intro n ho hc
      refine hm n ((run_top h2).subset ?_)
      have ho1 : t1.opens = [] := by
        cases h with
        | top => 
          unfold Tree.step at h1
          split at h1
          · split at h1
            · rw [Option.map_eq_some_iff] at h1; obtain ⟨x, -, rfl⟩ := h1; rfl
            · cases h1
          · split at h1
            · simp only [Option.some.injEq] at h1; subst h1; simp at hc
            · cases h1
          · simp at h1
          · cases h1
        | inner => simp at ho
      rw [ho1]
      show n ∈ t1.cur
      rw [hc]; simp)
    obtain ⟨d', s', k3, k4⟩ := ih k2 (fun e he => hs e (by simp [he])) h2 hm rest
    refine ⟨cs.flatten ++ d ++ d', s', ?_, by rw [← List.append_assoc] at k4; simpa [List.append_assoc] using k4⟩
    rw [List.cons_append, runText, k1]
    simp only [k3, List.append_assoc]

/-- A complete run. -/
theorem given_run (hF : Faithful F) {ind : Option (List Nat)} (hi : GoodIndent ind) {evs : List IonEvent} {items : List (Option (Spec.Node TSym))} (h : Given evs items) :
    ∀ {w : Bool} {out : List Nat} {pre : List (Option (Spec.Node TSym))}, Top F w out pre →
      ∃ d w', runText F ind ⟨[], w⟩ evs = (d, .ok ⟨[], w'⟩) ∧ Top F w' (out ++ d) (pre ++ items) := by
  induction h with
  | nil => intro w out pre ht; exact ⟨[], w, rfl, by simpa using ht⟩
  | flush evs items _ ih =>
    intro w out pre ht
    have ht' : Top F true out pre := by
      rcases ht with ⟨rfl, rfl, rfl⟩ | ⟨rfl, h⟩
      · exact .inr ⟨rfl, [], [], rfl, gap_nil, .inl ⟨rfl, rfl⟩⟩
      · exact .inr ⟨rfl, h⟩
    obtain ⟨d, w', h1, h2⟩ := ih ht'
    refine ⟨d, w', ?_, h2⟩
    have hstep : step F ind ⟨[], w⟩ ION_STREAM_END_EVENT = ([], .ok ((.complete, []), ⟨[], true⟩)) := by
      cases ind <;> cases w <;> rfl
    rw [runText, hstep]
    simp only [h1]
    rfl
  | marker evs items _ ih =>
    intro w out pre ht
    obtain ⟨sep, hsep, h0, h1⟩ := before_top hi (w := w) (e := ION_VERSION_MARKER_EVENT) (by decide) (by decide)
    have ht' := top_snoc ht h0 h1 (extDoc_marker (F := F))
    obtain ⟨d, w', h2, h3⟩ := ih ht'
    refine ⟨sep ++ asc ['$','i','o','n','_','1','_','0'] ++ d, w', ?_, by simpa [List.append_assoc] using h3⟩
    have hstep : step F ind ⟨[], w⟩ ION_VERSION_MARKER_EVENT = (delimiterChunks ind.isSome ⟨[], w⟩ ION_VERSION_MARKER_EVENT ++ indentChunks ind ⟨[], w⟩ ION_VERSION_MARKER_EVENT, .ok ((.complete, TEXT_ION_1_0), ⟨[], true⟩)) := by
      simp only [step, fieldChunks, ION_VERSION_MARKER_EVENT, IonEventType.beginsValue, Bool.false_eq_true, if_false, List.append_nil, finish, State.setWritten]
    rw [runText, hstep]
    simp only [h2, hsep]
    rfl
  | values vs evs ns items hv hs hm _ ih =>
    intro w out pre ht
    unfold textValues valuesOf at hv
    split at hv
    · next vs' hrun =>
      simp only [Option.some.injEq] at hv
      subst hv
      have hinv : Inv F pre ⟨[], w⟩ Tree.empty out := .top w out [] (by simpa using ht)
      obtain ⟨d, s', k1, k2⟩ := run_inv hF hi hinv (fun e he => by
        obtain ⟨e', he', rfl⟩ := List.mem_map.1 he
        exact safe_asToken (hs e' he')) hrun hm (evs.map asToken)
      rw [← List.map_append, run_asToken] at k1
      generalize hD : out ++ d = D at k2
      generalize hT : (⟨vs', []⟩ : Tree TSym) = T at k2
      cases k2 with
      | inner => simp at hT
      | top w1 _ cur htop =>
        simp only [Tree.mk.injEq, and_true] at hT
        subst hT
        subst hD
        obtain ⟨d', w', i1, i2⟩ := ih htop
        refine ⟨d ++ d', w', ?_, by simpa [List.append_assoc] using i2⟩
        rw [k1, run_asToken, i1]
    · cases hv

theorem top_doc {w : Bool} {out : List Nat} {items : List (Option (Spec.Node TSym))} (h : Top F w out items) : ∃ ws b, out = ws ++ b ∧ IsBlank ws ∧ IsDoc F b items := by
  rcases h with ⟨-, rfl, rfl⟩ | ⟨-, pad, b, rfl, hp, ⟨rfl, rfl⟩ | hb⟩
  · exact ⟨[], [], rfl, by simp [IsBlank], .nil⟩
  · exact ⟨pad, [], rfl, hp.1, .nil⟩
  · have := hb [] [] [] gap_nil (fun _ => .inl rfl) .nil
    rw [List.append_nil, List.append_nil, List.append_nil] at this
    exact ⟨pad, b, rfl, hp.1, this⟩

/-- The text writer writes a document of the grammar that denotes the values it was given. -/
theorem given_doc (hF : Faithful F) {ind : Option (List Nat)} (hi : GoodIndent ind) {evs : List IonEvent} {items : List (Option (Spec.Node TSym))} (h : Given evs items) :
    ∃ ws b w, runText F ind {} evs = (ws ++ b, .ok ⟨[], w⟩) ∧ IsBlank ws ∧ IsDoc F b items := by
  obtain ⟨d, w, h1, h2⟩ := given_run hF hi h (w := false) (out := []) (pre := []) (.inl ⟨rfl, rfl, rfl⟩)
  simp only [List.nil_append] at h2
  obtain ⟨ws, b, rfl, h3, h4⟩ := top_doc h2
  exact ⟨ws, b, w, h1, h3, h4⟩
end Ion.TextWriter
