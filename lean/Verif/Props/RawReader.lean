import Verif.RawReaderValues
set_option linter.unusedSimpArgs false
/-!
# The raw binary reader against the Ion specification: C24, C25, C26, C41

`Cursor` is the specification of a reader: a place in a document, and what `NEXT` and `SKIP` deliver from there.  It knows
nothing of bytes, chunks or handlers.
-/
namespace Ion.Spec
open Ion

/-- What stands at the top level of a stream. -/
inductive Top where
  | marker
  | value (n : Node Nat)

/-- The top level of a stream, given its segments. -/
def tops (segs : List (List (Node Nat))) : List Top := segs.flatMap fun items => .marker :: items.map .value

/-- A place in a document: the open containers, innermost first, each with its type and its values that are still to come;
what is still to come at the top level. -/
structure Cursor where
  levels : List (CType × List (Node Nat))
  top : List Top

/-- A symbol ID as a token. -/
def sidToken (n : Nat) : SymArg := .tok ⟨none, some n, none⟩

/-- The Python value of a scalar: the ID of a symbol is not resolved. -/
def pyValue : Scalar Nat → Option PyVal
  | .null _ => none
  | .bool b => some (.bool b)
  | .int i => some (.int i)
  | .float b => some (.float b)
  | .decimal d => some (.decimal d)
  | .timestamp t => some (.timestamp (.ts t))
  | .symbol n => some (.sym ⟨none, some n, none⟩)
  | .string t => some (.str t)
  | .clob b => some (.bytes b)
  | .blob b => some (.bytes b)

/-- The event that a value at some depth starts with. -/
def Node.event (depth : Nat) : Node Nat → IonEvent
  | .scalar f a x => { eventType := .scalar, ionType := some x.ty, value := .ok (pyValue x), fieldName := f.map sidToken, annotations := a.map sidToken, depth := some depth }
  | .cont f a ty _ => { eventType := .containerStart, ionType := some ty.ty, fieldName := f.map sidToken, annotations := a.map sidToken, depth := some depth }

/-- The event that ends a container at some depth. -/
def endEvent (depth : Nat) (ty : CType) : IonEvent := { eventType := .containerEnd, ionType := some ty.ty, depth := some depth }

/-- A value is visited: a container is entered. -/
def Cursor.visit (c : Cursor) : Node Nat → Cursor
  | .scalar .. => c
  | .cont _ _ ty items => { c with levels := (ty, items) :: c.levels }

/-- `NEXT`; `none` at the end of the document. -/
def Cursor.next (c : Cursor) : Option (IonEvent × Cursor) :=
  match c.levels with
  | (ty, []) :: ls => some (endEvent ls.length ty, { c with levels := ls })
  | (ty, n :: ns) :: ls => some (n.event (ls.length + 1), Cursor.visit { c with levels := (ty, ns) :: ls } n)
  | [] => match c.top with
    | [] => none
    | .marker :: ts => some ({ eventType := .versionMarker, depth := some 0 }, { c with top := ts })
    | .value n :: ts => some (n.event 0, Cursor.visit { c with top := ts } n)

/-- `SKIP`; `none` at the top level. -/
def Cursor.skip (c : Cursor) : Option (IonEvent × Cursor) :=
  match c.levels with
  | (ty, _) :: ls => some (endEvent ls.length ty, { c with levels := ls })
  | [] => none

/-- What a user asks for. -/
inductive Request where
  | next
  | skip
  deriving DecidableEq, Repr

/-- After the end of the stream, asking for more is an error. -/
def atEnd (signal : IonEvent) : List Request → List (Except PyErr IonEvent)
  | [] => [.ok signal]
  | _ :: _ => [.ok signal, .error .typeError]

/-- What a sequence of requests delivers; it ends with an exception if a request is illegal. -/
def Cursor.run (c : Cursor) : List Request → List (Except PyErr IonEvent)
  | [] => []
  | .next :: rs => match c.next with
    | some (e, c') => .ok e :: c'.run rs
    | none => atEnd { eventType := .streamEnd } rs
  | .skip :: rs => match c.skip with
    | some (e, c') => .ok e :: c'.run rs
    | none => [.error .typeError]

/-- Every scalar of the values, at any depth, has a property. -/
inductive AllScalars (P : Scalar Nat → Prop) : List (Node Nat) → Prop
  | nil : AllScalars P []
  | scalar (f : Option Nat) (a : List Nat) (x : Scalar Nat) (ns : List (Node Nat)) : P x → AllScalars P ns →
      AllScalars P (.scalar f a x :: ns)
  | cont (f : Option Nat) (a : List Nat) (ty : CType) (items ns : List (Node Nat)) : AllScalars P items → AllScalars P ns →
      AllScalars P (.cont f a ty items :: ns)

theorem tops_append (xs ys : List (List (Node Nat))) : tops (xs ++ ys) = tops xs ++ tops ys := by simp [tops]

theorem IsStream.append {a b : Bytes} {xs ys : List (List (Node Nat))} (ha : IsStream a xs) (hb : IsStream b ys) :
    IsStream (a ++ b) (xs ++ ys) := by
  induction ha with
  | nil => simpa using hb
  | segment body rest items segs hi _ ih =>
    have := IsStream.segment body (rest ++ b) items _ hi ih
    simpa using this

theorem IsStream.extend {a b : Bytes} {xs : List (List (Node Nat))} {x ys : List (Node Nat)} (ha : IsStream a (xs ++ [x]))
    (hb : IsItems false b ys) : IsStream (a ++ b) (xs ++ [x ++ ys]) := by
  generalize hs : xs ++ [x] = segs at ha
  induction ha generalizing xs with
  | nil => simp at hs
  | segment body rest items segs hi hrest ih =>
    cases xs with
    | nil =>
      simp only [List.nil_append, List.cons.injEq] at hs
      obtain ⟨rfl, rfl⟩ := hs
      cases hrest
      have := IsStream.segment (body ++ b) [] _ [] (hi.append hb) .nil
      simpa using this
    | cons y xs =>
      simp only [List.cons_append, List.cons.injEq] at hs
      obtain ⟨rfl, hs⟩ := hs
      have := IsStream.segment body (rest ++ b) y _ hi (ih hs)
      simpa using this

theorem tops_extend (xs : List (List (Node Nat))) (x ys : List (Node Nat)) :
    tops (xs ++ [x ++ ys]) = tops (xs ++ [x]) ++ ys.map .value := by simp [tops]

end Ion.Spec

namespace Ion.RawReader
open Ion Ion.Queue Ion.Fields Ion.Fields.Spec Ion.Scalars Ion.Scalars.Spec Ion.Spec

theorem pyValue_eq (x : Scalar Nat) : pyValue x = pyOf x := by cases x <;> rfl

/-- The frame of a container whose contents end at `stop`. -/
structure FrameOk (f : Frame) (s : Bool) (stop : Nat) : Prop where
  limit : f.depth = 0 ∨ f.limit = some (stop : Int)
  root : f.depth = 0 → f.first = false ∧ f.limit = none ∧ s = false
  struct : (f.ionType = some .struct) ↔ s = true

/-- The field name, where there is one. -/
theorem field_gets {miss b fb : Bytes} {s : Bool} {fld : Option Nat} {f : Frame} {fs : List Frame} {stop pos : Nat} {cs : List Bytes}
    {q : Queue} (hf : IsField s fb fld) (hok : FrameOk f s stop) (hat : At q cs pos (fb ++ b) miss) (hlt : pos + fb.length < stop)
    (hd : f.depth = 0 → ¬ Dry q cs) :
    Gets miss (containerLoop q (f :: fs)) cs (fun o' cs' => ∃ q', o' = containerValue q' f fs (fld.map sidTok) ∧
      At q' cs' (pos + fb.length) b miss ∧ (f.depth = 0 → ¬ Dry q' cs')) := by
  have hne : f.limit ≠ some q.position := by
    rcases hok.limit with h | h
    · rw [(hok.root h).2.1]; simp
    · rw [h, hat.pos]
      intro hc
      have := Option.some.inj hc
      omega
  unfold containerLoop
  simp only [hne, if_false]
  cases hf with
  | none =>
    rw [if_neg (by rw [hok.struct]; simp)]
    exact .pure ⟨q, rfl, by simpa using hat, hd⟩
  | some fb n hn =>
    rw [if_pos (hok.struct.2 rfl)]
    have hlim : LimOk f.depth f.limit (pos + fb.length) := by
      rcases hok.limit with h | h
      · exact .inl h
      · exact .inr ⟨_, h, by omega⟩
    refine (varUInt_gets hn.1 hat hlim).bind ?_
    rintro o' cs' ⟨q', rfl, hat'⟩
    rw [hn.2]
    refine .pure ⟨q', rfl, hat', ?_⟩
    intro h0
    have := (hok.root h0).2.2
    simp at this

/-- What one `NEXT` can lead to inside a container (or at the top level) with the given values still to come. -/
inductive ItemPost (f : Frame) (fs : List Frame) (s : Bool) (body rest miss : Bytes) (stop : Nat) :
    List (Node Nat) → Outcome → List Bytes → Prop
  /-- no value, only padding: the container handler finds the end -/
  | done (q : Queue) (cs : List Bytes) (x : Bool) : (f.depth = 0 → x = false) → At q cs stop rest miss →
      IsItems s body [] → ItemPost f fs s body rest miss stop [] (containerLoop q ({ f with first := x } :: fs)) cs
  /-- a scalar -/
  | scalar (q : Queue) (cs : List Bytes) (fld : Option Nat) (ann : List Nat) (x : Scalar Nat) (ns : List (Node Nat))
      (used body' : Bytes) (p : Nat) : body = used ++ body' → IsItems s used [.scalar fld ann x] → IsItems s body' ns →
      At q cs p (body' ++ rest) miss → p + body'.length = stop →
      ItemPost f fs s body rest miss stop (.scalar fld ann x :: ns)
        (.emit ((Node.scalar fld ann x).event f.depth) q ({ f with first := false } :: fs)) cs
  /-- the start of a container -/
  | cont (q : Queue) (cs : List Bytes) (fld : Option Nat) (ann : List Nat) (ty : CType) (ch ns : List (Node Nat))
      (used cbody body' : Bytes) (p p2 : Nat) : body = used ++ body' → IsItems s used [.cont fld ann ty ch] →
      IsItems (ty = .struct) cbody ch → IsItems s body' ns →
      At q cs p (cbody ++ (body' ++ rest)) miss → p + cbody.length = p2 → p2 + body'.length = stop →
      ItemPost f fs s body rest miss stop (.cont fld ann ty ch :: ns)
        (.emit ((Node.cont fld ann ty ch).event f.depth) q
          (⟨some ty.ty, some (p2 : Int), f.depth + 1, true⟩ :: { f with first := false } :: fs)) cs
  /-- the input ends at the top level -/
  | dry (q : Queue) (cs : List Bytes) (items : List (Node Nat)) (used body' : Bytes) (p : Nat) : f.depth = 0 →
      body = used ++ body' → IsItems s used [] → IsItems s body' items → Dry q cs →
      At q cs p (body' ++ rest) miss → p + body'.length = stop →
      ItemPost f fs s body rest miss stop items (containerLoop q (f :: fs)) cs

theorem isPadField_isField {s : Bool} {f : Bytes} (h : IsPadField s f) :
    ∃ fld, IsField s f fld ∧ namedPad (fld.map sidTok) = false := by
  cases s with
  | false =>
    simp only [IsPadField, Bool.false_eq_true, if_false] at h
    subst h
    exact ⟨none, .none, rfl⟩
  | true =>
    simp only [IsPadField, if_true] at h
    exact ⟨some 0, .some f 0 h, by decide⟩

theorem FrameOk.limOk {f : Frame} {s : Bool} {stop n : Nat} (h : FrameOk f s stop) (hn : n ≤ stop) : LimOk f.depth f.limit n := by
  rcases h.limit with h | h
  · exact .inl h
  · exact .inr ⟨_, h, by omega⟩

theorem containerValue_eq {q : Queue} {f : Frame} {fs : List Frame} {fld : Option SymbolToken} {s : Bool} {stop : Nat}
    (h : FrameOk f s stop) : containerValue q f fs fld
      = startType q ({ f with first := false } :: fs) ⟨f.limit, f.depth, fld, none⟩ false (decide (f.depth = 0)) := by
  unfold containerValue
  congr 1
  by_cases h0 : f.depth = 0
  · simp [(h.root h0).1]
  · simp [h0]

theorem event_fields (ctx : Ctx) (ann : List Nat) (stop : Nat) (h : ctx.annotations = none) :
    (wrapCtx ctx ann stop).fieldName = ctx.fieldName ∧ (wrapCtx ctx ann stop).depth = ctx.depth ∧
    (wrapCtx ctx ann stop).annotations.getD [] = ann.map sidTok := by
  unfold wrapCtx
  split
  · rename_i h0; subst h0; simp [h]
  · simp

theorem tokens_eq (ann : List Nat) : (ann.map sidTok).map SymArg.tok = ann.map sidToken := by simp [sidTok, sidToken]
theorem token_eq (f : Option Nat) : (f.map sidTok).map SymArg.tok = f.map sidToken := by cases f <;> rfl

theorem items_gets {s : Bool} {body : Bytes} {items : List (Node Nat)} (hi : IsItems s body items) :
    ∀ {miss rest : Bytes} {f : Frame} {fs : List Frame} {stop pos : Nat} {cs : List Bytes} {q : Queue},
    AllScalars Readable items → FrameOk f s stop → pos + body.length = stop → At q cs pos (body ++ rest) miss →
    Gets miss (containerLoop q (f :: fs)) cs (ItemPost f fs s body rest miss stop items) := by
  induction hi with
  | nil s =>
    intro miss rest f fs stop pos cs q _ hok hstop hat
    refine .pure (.done q cs f.first (fun h => (hok.root h).1) ?_ (.nil s))
    simpa [← hstop] using hat
  | pad s fb p pb rst items hpf hp hrest ih =>
    intro miss rest f fs stop pos cs q hall hok hstop hat
    by_cases hdry : f.depth = 0 ∧ Dry q cs
    · exact .pure (.dry q cs items [] _ pos hdry.1 rfl (.nil s) (.pad s fb p pb rst items hpf hp hrest) hdry.2 hat hstop)
    obtain ⟨fld, hfld, hnp⟩ := isPadField_isField hpf
    have hpl := List.length_pos_iff.2 (framed_ne_nil hp)
    simp only [List.length_append] at hstop
    refine (field_gets hfld hok (b := p ++ (rst ++ rest)) (by simpa using hat) (by omega) (fun h0 hd => hdry ⟨h0, hd⟩)).bind ?_
    rintro o' cs' ⟨q', rfl, hat', hd'⟩
    rw [containerValue_eq hok]
    refine (pad_gets hp hnp hat' (hok.limOk (by omega)) (by simpa using hd')).bind ?_
    rintro o2 cs2 ⟨q2, rfl, hat2⟩
    have hok2 : FrameOk { f with first := false } s stop := ⟨hok.limit, fun h => ⟨rfl, (hok.root h).2⟩, hok.struct⟩
    refine (ih (f := { f with first := false }) hall hok2 (by omega) hat2).bind ?_
    intro o3 cs3 hpost
    refine .pure ?_
    have hpadItems : IsItems s (fb ++ p ++ []) [] := .pad s fb p pb [] [] hpf hp (.nil s)
    simp only [List.append_nil] at hpadItems
    cases hpost with
    | done q cs x hx h1 h2 =>
      exact .done q _ x hx h1 (.pad s fb p pb _ _ hpf hp h2)
    | scalar q cs fld ann x ns used body' p0 h1 h2 h3 h4 h5 =>
      refine .scalar q _ fld ann x ns (fb ++ p ++ used) body' p0 (by rw [h1]; simp) ?_ h3 h4 h5
      have := IsItems.pad s fb p pb used _ hpf hp h2
      simpa using this
    | cont q cs fld ann ty ch ns used cbody body' p0 p2 h1 h2 h3 h4 h5 h6 h7 =>
      refine .cont q _ fld ann ty ch ns (fb ++ p ++ used) cbody body' p0 p2 (by rw [h1]; simp) ?_ h3 h4 h5 h6 h7
      have := IsItems.pad s fb p pb used _ hpf hp h2
      simpa using this
    | dry q cs items used body' p0 h0 h1 h2 h3 h4 h5 h6 =>
      have : ({ f with first := false } : Frame) = f := by
        have := (hok.root h0).1
        cases f; simp_all
      rw [this]
      refine .dry q _ _ (fb ++ p ++ used) body' p0 h0 (by rw [h1]; simp) ?_ h3 h4 h5 h6
      have := IsItems.pad s fb p pb used _ hpf hp h2
      simpa using this
  | scalar s fb inner v rst fld ann x items hfld hx hw hrest _ =>
    intro miss rest f fs stop pos cs q hall hok hstop hat
    by_cases hdry : f.depth = 0 ∧ Dry q cs
    · exact .pure (.dry q cs _ [] _ pos hdry.1 rfl (.nil s) (.scalar s fb inner v rst fld ann x items hfld hx hw hrest) hdry.2 hat hstop)
    have hread : Readable x := by cases hall; assumption
    have hvl := List.length_pos_iff.2 (wrapped_ne_nil hw (isScalar_ne_nil hx))
    simp only [List.length_append] at hstop
    refine (field_gets hfld hok (b := v ++ (rst ++ rest)) (by simpa using hat) (by omega) (fun h0 hd => hdry ⟨h0, hd⟩)).bind ?_
    rintro o' cs' ⟨q', rfl, hat', hd'⟩
    rw [containerValue_eq hok]
    refine (wrapped_gets hw (isScalar_ne_nil hx) rfl hat' (hok.limOk (by omega)) (by simpa using hd')).bind ?_
    rintro o2 cs2 ⟨q2, p2, top2, rfl, hat2, hp2, hd2⟩
    obtain ⟨e1, e2, e3⟩ := event_fields ⟨f.limit, f.depth, fld.map sidTok, none⟩ ann (pos + fb.length + v.length) rfl
    have hlim2 : LimOk (wrapCtx ⟨f.limit, f.depth, fld.map sidTok, none⟩ ann (pos + fb.length + v.length)).depth
        (wrapCtx ⟨f.limit, f.depth, fld.map sidTok, none⟩ ann (pos + fb.length + v.length)).limit (p2 + inner.length) := by
      unfold wrapCtx
      split
      · exact hok.limOk (by omega)
      · exact .inr ⟨_, rfl, by omega⟩
    have hend2 : EndOk (wrapCtx ⟨f.limit, f.depth, fld.map sidTok, none⟩ ann (pos + fb.length + v.length)) (p2 + inner.length) := by
      unfold wrapCtx EndOk
      split
      · simp
      · intro _; rw [hp2]
    refine (scalar_gets hx hread hat2 hlim2 hend2 hd2).bind ?_
    rintro o3 cs3 ⟨q3, rfl, hat3⟩
    refine .pure ?_
    have hev : scalarEv (wrapCtx ⟨f.limit, f.depth, fld.map sidTok, none⟩ ann (pos + fb.length + v.length)).fieldName
        ((wrapCtx ⟨f.limit, f.depth, fld.map sidTok, none⟩ ann (pos + fb.length + v.length)).annotations.getD [])
        (wrapCtx ⟨f.limit, f.depth, fld.map sidTok, none⟩ ann (pos + fb.length + v.length)).depth x
        = (Node.scalar fld ann x).event f.depth := by
      rw [e1, e2, e3]
      simp only [scalarEv, Node.event, tokens_eq, token_eq, pyValue_eq]
    rw [hev]
    refine .scalar q3 cs3 fld ann x items (fb ++ v) rst (p2 + inner.length) rfl ?_ hrest hat3 (by omega)
    have := IsItems.scalar s fb inner v [] fld ann x [] hfld hx hw (.nil s)
    simpa using this
  | cont s fb cbody inner v rst fld ann ty ch items ordered hfld hch hord hc hw hrest _ _ =>
    intro miss rest f fs stop pos cs q hall hok hstop hat
    by_cases hdry : f.depth = 0 ∧ Dry q cs
    · exact .pure (.dry q cs _ [] _ pos hdry.1 rfl (.nil s)
        (.cont s fb cbody inner v rst fld ann ty ch items ordered hfld hch hord hc hw hrest) hdry.2 hat hstop)
    have hvl := List.length_pos_iff.2 (wrapped_ne_nil hw (framedContainer_ne_nil hc))
    simp only [List.length_append] at hstop
    refine (field_gets hfld hok (b := v ++ (rst ++ rest)) (by simpa using hat) (by omega) (fun h0 hd => hdry ⟨h0, hd⟩)).bind ?_
    rintro o' cs' ⟨q', rfl, hat', hd'⟩
    rw [containerValue_eq hok]
    refine (wrapped_gets hw (framedContainer_ne_nil hc) rfl hat' (hok.limOk (by omega)) (by simpa using hd')).bind ?_
    rintro o2 cs2 ⟨q2, p2, top2, rfl, hat2, hp2, hd2⟩
    obtain ⟨e1, e2, e3⟩ := event_fields ⟨f.limit, f.depth, fld.map sidTok, none⟩ ann (pos + fb.length + v.length) rfl
    have hlim2 : LimOk (wrapCtx ⟨f.limit, f.depth, fld.map sidTok, none⟩ ann (pos + fb.length + v.length)).depth
        (wrapCtx ⟨f.limit, f.depth, fld.map sidTok, none⟩ ann (pos + fb.length + v.length)).limit (p2 + inner.length) := by
      unfold wrapCtx
      split
      · exact hok.limOk (by omega)
      · exact .inr ⟨_, rfl, by omega⟩
    have hend2 : EndOk (wrapCtx ⟨f.limit, f.depth, fld.map sidTok, none⟩ ann (pos + fb.length + v.length)) (p2 + inner.length) := by
      unfold wrapCtx EndOk
      split
      · simp
      · intro _; rw [hp2]
    refine (container_gets hc hch hat2 hlim2 hend2 hd2).bind ?_
    rintro o3 cs3 ⟨q3, p3, rfl, hat3, hp3⟩
    refine .pure ?_
    have hev : startEv (wrapCtx ⟨f.limit, f.depth, fld.map sidTok, none⟩ ann (pos + fb.length + v.length)).fieldName
        ((wrapCtx ⟨f.limit, f.depth, fld.map sidTok, none⟩ ann (pos + fb.length + v.length)).annotations.getD [])
        (wrapCtx ⟨f.limit, f.depth, fld.map sidTok, none⟩ ann (pos + fb.length + v.length)).depth ty
        = (Node.cont fld ann ty ch).event f.depth := by
      rw [e1, e2, e3]
      simp only [startEv, Node.event, tokens_eq, token_eq]
    rw [hev, e2]
    refine .cont q3 cs3 fld ann ty ch items (fb ++ v) cbody rst p3 _ rfl ?_ hch hrest hat3 hp3 (by omega)
    have := IsItems.cont s fb cbody inner v [] fld ann ty ch [] ordered hfld hch hord hc hw (.nil s)
    simpa using this

/-! ## The place of the reader in the document -/

/-- The frame of the top level. -/
abbrev rootFrame (first : Bool) : Frame := ⟨none, none, 0, first⟩

/-- The reader, at position `pos` of the document `doc` with `input` ahead and the given stack of container handlers, is
at the place `c` of the document, whose top level is `all`. -/
inductive Levels (doc : Bytes) (all : List Top) : Nat → Bytes → List Frame → Cursor → Prop
  | start (segs : List (List (Node Nat))) : IsStream doc segs → (∀ items ∈ segs, AllScalars Readable items) → all = tops segs →
      Levels doc all 0 doc [rootFrame true] ⟨[], tops segs⟩
  | root (done body rest : Bytes) (xs : List (List (Node Nat))) (x items : List (Node Nat)) (segs : List (List (Node Nat))) :
      doc = done ++ (body ++ rest) → IsStream done (xs ++ [x]) → IsItems false body items → AllScalars Readable items →
      IsStream rest segs → (∀ items ∈ segs, AllScalars Readable items) →
      all = tops (xs ++ [x]) ++ (items.map .value ++ tops segs) →
      Levels doc all done.length (body ++ rest) [rootFrame false] ⟨[], items.map .value ++ tops segs⟩
  | level (pos : Nat) (body rest : Bytes) (fs : List Frame) (c : Cursor) (ty : CType) (items : List (Node Nat)) (first : Bool) :
      IsItems (ty = .struct) body items → AllScalars Readable items → Levels doc all (pos + body.length) rest fs c →
      Levels doc all pos (body ++ rest)
        (⟨some ty.ty, some ((pos + body.length : Nat) : Int), c.levels.length + 1, first⟩ :: fs) ⟨(ty, items) :: c.levels, c.top⟩

/-- What `NEXT` leads to: the event of the specification, or, at the top level, a request for more data, when the part of
the document that was available is itself a complete stream. -/
inductive Next (doc : Bytes) (all : List Top) (miss : Bytes) (c : Cursor) : Outcome → List Bytes → Prop
  | event (e : IonEvent) (c' : Cursor) (q : Queue) (cs : List Bytes) (stack : List Frame) (pos : Nat) (input : Bytes) :
      c.next = some (e, c') → Levels doc all pos input stack c' → At q cs pos input miss →
      Next doc all miss c (.emit e q stack) cs
  | fin (m : Machine) (a : Bytes) (segs : List (List (Node Nat))) : c.levels = [] → (∃ l sk b t, m.ctl = .read l sk b t) →
      doc = a ++ miss → IsStream a segs → all = tops segs ++ c.top → (miss = [] → c.top = []) → Next doc all miss c (.block true m) []

theorem At.dry_miss {q : Queue} {cs : List Bytes} {pos : Nat} {input miss : Bytes} (h : At q cs pos input miss) (hd : Dry q cs) :
    miss = input := by
  obtain ⟨f, hr, -, hi, -⟩ := h
  obtain ⟨h1, rfl⟩ := hd
  have : f.rest = [] := by
    have := hr.size; rw [h1] at this
    exact List.eq_nil_of_length_eq_zero (by omega)
  rw [this] at hi
  simpa using hi

theorem At.nil_dry {q : Queue} {cs : List Bytes} {pos : Nat} {miss : Bytes} (h : At q cs pos [] miss) : Dry q cs := by
  obtain ⟨f, hr, -, hi, hc⟩ := h
  simp only [List.append_eq_nil_iff, List.flatten_eq_nil_iff] at hi
  refine ⟨by rw [hr.size, hi.1.1]; rfl, ?_⟩
  cases cs with
  | nil => rfl
  | cons c cs => exact absurd (hi.1.2 c (by simp)) (hc c (by simp))

/-- At the top level without input, the reader asks for data and says that the stream may end here. -/
theorem dry_leads {q : Queue} {cs : List Bytes} {first : Bool} (h : Dry q cs) :
    ∃ m, (∃ l sk b t, m.ctl = .read l sk b t) ∧ Leads (containerLoop q [rootFrame first]) cs (.block true m) [] := by
  obtain ⟨h1, rfl⟩ := h
  refine ⟨⟨q, [rootFrame false], .read 1 false true (.typeOctet ⟨none, 0, none, none⟩ (first && decide (0 = 0)))⟩, ⟨_, _, _, _, rfl⟩, ?_⟩
  have : containerLoop q [rootFrame first] = .cont ⟨q, [rootFrame false], .read 1 false true (.typeOctet ⟨none, 0, none, none⟩ (first && decide (0 = 0)))⟩ := by
    simp [containerLoop, containerValue, startType, startRead, remaining, overruns, h1]
  rw [this]
  exact .step (.here _ _)

/-- The version marker. -/
theorem marker_gets {miss b : Bytes} {first : Bool} {pos : Nat} {cs : List Bytes} {q : Queue}
    (hat : At q cs pos ([0xE0, 0x01, 0x00, 0xEA] ++ b) miss) (hd : ¬ Dry q cs) :
    Gets miss (containerLoop q [rootFrame first]) cs
      (fun o' cs' => ∃ q', o' = .emit ION_VERSION_MARKER_EVENT q' [rootFrame false] ∧ At q' cs' (pos + 4) b miss) := by
  have : containerLoop q [rootFrame first]
      = startType q [rootFrame false] ⟨none, 0, none, none⟩ (first && decide (0 = 0)) true := by
    simp [containerLoop, containerValue]
  rw [this]
  refine (type_gets (h := 0xE0) (b := [0x01, 0x00, 0xEA] ++ b) hat (.inl rfl) (fun _ => rfl) (fun _ => hd)).bind ?_
  rintro o' cs' ⟨q', rfl, hat'⟩
  rw [show dispatch 0xE0 = .ivm from by decide +kernel]
  simp only [handle, ne_eq, not_true_eq_false, if_false]
  refine (startRead_gets (a := [0x01, 0x00, 0xEA]) hat' (.inl rfl) (by simp)).bind ?_
  rintro o2 cs2 ⟨q2, rfl, hat2, hs⟩
  obtain ⟨q3, h3, hat3⟩ := hat2.read hs
  simp only [List.length_cons, List.length_nil] at h3
  simp only [resume]
  have h3' : q2.read 3 = .ok ([0x01, 0x00, 0xEA], q3) := h3
  rw [h3']
  simp only [ne_eq, not_true_eq_false, if_false]
  exact .pure ⟨q3, rfl, hat3⟩

theorem isItems_nil {s : Bool} {body : Bytes} {items : List (Node Nat)} (h0 : body = []) (h : IsItems s body items) : items = [] := by
  cases h with
  | nil => rfl
  | pad _ f p _ rest _ _ hp _ =>
    have := framed_ne_nil hp
    simp at h0
    exact absurd h0.2.1 this
  | scalar _ f inner v rest _ _ _ _ _ hx hw _ =>
    have := wrapped_ne_nil hw (isScalar_ne_nil hx)
    simp at h0
    exact absurd h0.2.1 this
  | cont _ f body inner v rest _ _ _ _ _ _ _ _ _ hc hw _ =>
    have := wrapped_ne_nil hw (framedContainer_ne_nil hc)
    simp at h0
    exact absurd h0.2.1 this

theorem isStream_nil {body : Bytes} {segs : List (List (Node Nat))} (h0 : body = []) (h : IsStream body segs) : segs = [] := by
  cases h with
  | nil => rfl
  | segment => simp at h0

/-- At the top level between two segments. -/
theorem stream_gets {doc miss done rest : Bytes} {all : List Top} {segsD segs : List (List (Node Nat))} {first : Bool}
    {cs : List Bytes} {q : Queue} (hdoc : doc = done ++ rest) (hdone : IsStream done segsD) (hs : IsStream rest segs)
    (hall : ∀ items ∈ segs, AllScalars Readable items) (htops : all = tops segsD ++ tops segs)
    (hat : At q cs done.length rest miss) :
    Gets miss (containerLoop q [rootFrame first]) cs (Next doc all miss ⟨[], tops segs⟩) := by
  by_cases hd : Dry q cs
  · obtain ⟨m, hm, hl⟩ := dry_leads (first := first) hd
    refine .inl ⟨_, _, hl, .fin m done segsD rfl hm (by rw [hdoc, hat.dry_miss hd]) hdone htops ?_⟩
    intro h0
    rw [hat.dry_miss hd] at h0
    rw [isStream_nil h0 hs]; rfl
  · cases hs with
    | nil => exact absurd hat.nil_dry hd
    | segment body rest items segs hi hrest =>
      refine (marker_gets (by simpa using hat) hd).bind ?_
      rintro o' cs' ⟨q', rfl, hat'⟩
      refine .pure (.event ION_VERSION_MARKER_EVENT ⟨[], items.map .value ++ tops segs⟩ q' cs' _
        (done ++ [0xE0, 0x01, 0x00, 0xEA]).length (body ++ rest) ?_ ?_ ?_)
      · simp [Cursor.next, tops, ION_VERSION_MARKER_EVENT]
      · refine .root _ _ _ segsD [] items segs (by rw [hdoc]; simp) ?_ hi (hall _ (by simp)) hrest
          (fun i hi => hall i (by simp [hi])) ?_
        · have := hdone.append (IsStream.segment [] [] [] [] (.nil false) .nil)
          simpa using this
        · rw [htops]; simp [tops]
      · simpa using hat'

/-- **One `NEXT`.** -/
theorem next_gets {doc miss input : Bytes} {all : List Top} {c : Cursor} {stack : List Frame} {pos : Nat} {cs : List Bytes}
    {q : Queue} (hl : Levels doc all pos input stack c) (hat : At q cs pos input miss) :
    Gets miss (containerLoop q stack) cs (Next doc all miss c) := by
  cases hl with
  | start segs hs hall htops =>
    exact stream_gets (done := []) (segsD := []) rfl .nil hs hall (by simpa [tops] using htops) (by simpa using hat)
  | root done body rest xs x items segs hdoc hdone hi hread hs hall htops =>
    have hok : FrameOk (rootFrame false) false (done.length + body.length) :=
      ⟨.inl rfl, fun _ => ⟨rfl, rfl, rfl⟩, by simp⟩
    refine (items_gets hi hread hok rfl hat).bind ?_
    intro o' cs' hpost
    cases hpost with
    | done q' _ x' hx' hat' hi' =>
      have hx : x' = false := hx' rfl
      subst hx
      simp only [List.map_nil, List.nil_append] at htops ⊢
      have hdone' := hdone.extend hi'
      refine stream_gets (done := done ++ body) (by rw [hdoc]; simp) hdone' hs hall ?_ (by simpa using hat')
      rw [htops]; simp
    | scalar q' _ fld ann v ns used body' p h1 h2 h3 h4 h5 =>
      subst h1
      have hp : (done ++ used).length = p := by simp at h5 ⊢; omega
      subst hp
      refine .pure (.event _ ⟨[], ns.map .value ++ tops segs⟩ q' cs' _ _ (body' ++ rest) (by simp [Cursor.next, Cursor.visit]) ?_ h4)
      refine .root _ _ _ xs _ ns segs (by rw [hdoc]; simp) (hdone.extend h2) h3 (by cases hread; assumption) hs hall ?_
      rw [htops, tops_extend]; simp
    | cont q' _ fld ann ty ch ns used cbody body' p p2 h1 h2 h3 h4 h5 h6 h7 =>
      subst h1
      have hp : (done ++ used).length = p + cbody.length := by simp at h7 ⊢; omega
      subst h6
      refine .pure (.event _ ⟨[(ty, ch)], ns.map .value ++ tops segs⟩ q' cs' _ _ (cbody ++ (body' ++ rest)) (by simp [Cursor.next, Cursor.visit]) ?_ h5)
      refine Levels.level p cbody (body' ++ rest) [rootFrame false] ⟨[], ns.map .value ++ tops segs⟩ ty ch true h3 (by cases hread; assumption) ?_
      rw [← hp]
      refine .root _ _ _ xs _ ns segs (by rw [hdoc]; simp) (hdone.extend h2) h4 (by cases hread; assumption) hs hall ?_
      rw [htops, tops_extend]; simp
    | dry q' _ _ used body' p h0 h1 h2 h3 h4 h5 h6 =>
      obtain ⟨m, hm, hl⟩ := dry_leads (first := false) h4
      subst h1
      refine .inl ⟨_, _, hl, .fin m (done ++ used) (xs ++ [x ++ []]) rfl hm ?_ (hdone.extend h2) ?_ ?_⟩
      · rw [hdoc, h5.dry_miss h4]; simp
      · rw [htops]; simp
      · intro h0
        rw [h5.dry_miss h4, List.append_eq_nil_iff] at h0
        rw [isItems_nil h0.1 h3, isStream_nil h0.2 hs]; rfl
  | level pos body rest fs c ty items first hi hread hlev =>
    have hok : FrameOk ⟨some ty.ty, some ((pos + body.length : Nat) : Int), c.levels.length + 1, first⟩ (decide (ty = .struct)) (pos + body.length) :=
      ⟨.inr rfl, fun h => absurd h (by simp), by cases ty <;> simp [CType.ty]⟩
    refine (items_gets hi hread hok rfl hat).bind ?_
    intro o' cs' hpost
    cases hpost with
    | done q' _ x' hx' hat' hi' =>
      have : containerLoop q' (⟨some ty.ty, some ((pos + body.length : Nat) : Int), c.levels.length + 1, x'⟩ :: fs)
          = .emit (endEvent c.levels.length ty) q' fs := by
        unfold containerLoop
        simp only [hat'.pos, if_true, endEvent]
        congr 2
        push_cast
        simp
      rw [this]
      exact .pure (.event _ c q' cs' _ _ rest (by simp [Cursor.next]) hlev hat')
    | scalar q' _ fld ann v ns used body' p h1 h2 h3 h4 h5 =>
      subst h1
      refine .pure (.event _ ⟨(ty, ns) :: c.levels, c.top⟩ q' cs' _ p (body' ++ rest) (by simp [Cursor.next, Cursor.visit]) ?_ h4)
      rw [← h5]
      exact .level p body' rest fs c ty ns false h3 (by cases hread; assumption) (by rw [h5]; exact hlev)
    | cont q' _ fld ann ty2 ch ns used cbody body' p p2 h1 h2 h3 h4 h5 h6 h7 =>
      subst h1
      subst h6
      refine .pure (.event _ ⟨(ty2, ch) :: (ty, ns) :: c.levels, c.top⟩ q' cs' _ p (cbody ++ (body' ++ rest)) (by simp [Cursor.next, Cursor.visit]) ?_ h5)
      refine Levels.level p cbody (body' ++ rest) _ ⟨(ty, ns) :: c.levels, c.top⟩ ty2 ch true h3 (by cases hread; assumption) ?_
      rw [← h7]
      exact .level _ body' rest fs c ty ns false h4 (by cases hread; assumption) (by rw [h7]; exact hlev)
    | dry _ _ _ _ _ _ h0 => simp at h0

/-- **One `SKIP`.** -/
theorem skip_ends {doc miss input : Bytes} {all : List Top} {c : Cursor} {stack : List Frame} {pos : Nat} {cs : List Bytes}
    {q : Queue} (hl : Levels doc all pos input stack c) (hat : At q cs pos input miss) (hne : c.levels ≠ []) :
    ∃ f fs r, stack = f :: fs ∧ remaining f.depth f.limit q = .ok (some r) ∧
      Gets miss (startRead q stack f.depth f.limit r true false .loop) cs
        (fun o' cs' => ∃ e c' q' pos' input', o' = .emit e q' fs ∧ c.skip = some (e, c') ∧ Levels doc all pos' input' fs c' ∧
          At q' cs' pos' input' miss) := by
  cases hl with
  | start | root => exact absurd rfl hne
  | level pos body rest fs c ty items first hi hread hlev =>
    refine ⟨_, fs, body.length, rfl, ?_, ?_⟩
    · simp [remaining, hat.pos]; omega
    · refine (skip_gets hat (.inr ⟨_, rfl, Int.le_refl _⟩)).bind ?_
      rintro o' cs' ⟨q', rfl, hat'⟩
      have : containerLoop q' (⟨some ty.ty, some ((pos + body.length : Nat) : Int), c.levels.length + 1, first⟩ :: fs)
          = .emit (endEvent c.levels.length ty) q' fs := by
        unfold containerLoop
        simp only [hat'.pos, if_true, endEvent]
        congr 2
        push_cast
        simp
      rw [this]
      exact .pure ⟨_, c, q', _, rest, rfl, by simp [Cursor.skip], hlev, hat'⟩

/-! ## Requests -/

/-- The reader `st`, with the chunks `cs` to come, is at the place `c` of the document. -/
def Sees (doc : Bytes) (all : List Top) (miss : Bytes) (st : Status) (cs : List Bytes) (c : Cursor) : Prop :=
  ∃ q stack pos input, (st = .ready q stack (decide (c.levels = [])) ∨ (st = .fresh q stack ∧ c.levels = [])) ∧
    Levels doc all pos input stack c ∧ At q cs pos input miss

/-- The reader waits for data; the last event was a stream signal. -/
def Waiting (st : Status) : Prop := ∃ q stack l sk b t, st = .waiting q stack l sk b t

theorem next_flag {c c' : Cursor} {e : IonEvent} (h : c.next = some (e, c')) :
    (decide (e.depth = some 0) && decide (e.eventType ≠ .containerStart)) = decide (c'.levels = []) ∧
    e.eventType.isStreamSignal = false := by
  obtain ⟨ls, ts⟩ := c
  cases ls with
  | nil =>
    cases ts with
    | nil => simp [Cursor.next] at h
    | cons t ts =>
      cases t with
      | marker =>
        simp only [Cursor.next, Option.some.injEq, Prod.mk.injEq] at h
        obtain ⟨rfl, rfl⟩ := h
        simp [IonEventType.isStreamSignal]
      | value n =>
        simp only [Cursor.next, Option.some.injEq, Prod.mk.injEq] at h
        obtain ⟨rfl, rfl⟩ := h
        cases n <;> simp [Node.event, Cursor.visit, IonEventType.isStreamSignal]
  | cons l ls =>
    obtain ⟨ty, ns⟩ := l
    cases ns with
    | nil =>
      simp only [Cursor.next, Option.some.injEq, Prod.mk.injEq] at h
      obtain ⟨rfl, rfl⟩ := h
      cases ls <;> simp [endEvent, IonEventType.isStreamSignal]
      omega
    | cons n ns =>
      simp only [Cursor.next, Option.some.injEq, Prod.mk.injEq] at h
      obtain ⟨rfl, rfl⟩ := h
      cases n <;> simp [Node.event, Cursor.visit, IonEventType.isStreamSignal]
      omega

theorem skip_flag {c c' : Cursor} {e : IonEvent} (h : c.skip = some (e, c')) :
    (decide (e.depth = some 0) && decide (e.eventType ≠ .containerStart)) = decide (c'.levels = []) ∧
    e.eventType.isStreamSignal = false := by
  obtain ⟨ls, ts⟩ := c
  cases ls with
  | nil => simp [Cursor.skip] at h
  | cons l ls =>
    simp only [Cursor.skip, Option.some.injEq, Prod.mk.injEq] at h
    obtain ⟨rfl, rfl⟩ := h
    cases ls <;> simp [endEvent, IonEventType.isStreamSignal]
    omega

theorem absorb_emit {e : IonEvent} {q : Queue} {stack : List Frame} {cs : List Bytes} (he : e.eventType.isStreamSignal = false) :
    absorb (deliver (finish (.emit e q stack))) cs
      = (.ok e, .ready q stack (decide (e.depth = some 0) && decide (e.eventType ≠ .containerStart)), cs) := by
  simp only [finish, deliver]
  cases cs <;> simp [absorb, he]

theorem absorb_block {b : Bool} {m : Machine} (hm : ∃ l sk a t, m.ctl = .read l sk a t) :
    ∃ st, Waiting st ∧ absorb (deliver (finish (.block b m))) []
      = (.ok (if b then ION_STREAM_END_EVENT else ION_STREAM_INCOMPLETE_EVENT), st, []) := by
  obtain ⟨l, sk, a, t, hm⟩ := hm
  refine ⟨.waiting m.queue m.stack l sk b t, ⟨_, _, _, _, _, _, rfl⟩, ?_⟩
  simp only [finish, deliver, hm, absorb]

/-- The part of the document that was available is a complete stream, whose values have been visited. -/
def CompleteBefore (doc : Bytes) (all : List Top) (miss : Bytes) (c : Cursor) : Prop :=
  c.levels = [] ∧ (miss = [] → c.top = []) ∧ ∃ a segs, doc = a ++ miss ∧ IsStream a segs ∧ all = tops segs ++ c.top

theorem pull_next {doc miss : Bytes} {all : List Top} {st : Status} {cs : List Bytes} {c : Cursor}
    (h : Sees doc all miss st cs c) :
    (∃ e c' st' cs', c.next = some (e, c') ∧ pull st cs .next = (.ok e, st', cs') ∧ Sees doc all miss st' cs' c' ∧
      e.eventType.isStreamSignal = false) ∨
    (miss ≠ [] ∧ ∃ st', Waiting st' ∧ pull st cs .next = (.ok ION_STREAM_INCOMPLETE_EVENT, st', [])) ∨
    (CompleteBefore doc all miss c ∧ ∃ st', Waiting st' ∧ pull st cs .next = (.ok ION_STREAM_END_EVENT, st', [])) := by
  obtain ⟨q, stack, pos, input, hst, hl, hat⟩ := h
  have hsend : send st .next = deliver (finish (.cont ⟨q, stack, .loop⟩)) := by
    rcases hst with rfl | ⟨rfl, -⟩ <;> rfl
  have hstep : Gets miss (.cont ⟨q, stack, .loop⟩) cs (Next doc all miss c) := .step (next_gets hl hat)
  unfold pull
  rw [hsend]
  rcases hstep with ⟨o', cs', hleads, hpost⟩ | ⟨hm, m, hctl, hleads⟩
  · rw [hleads.absorb]
    cases hpost with
    | event e c' q' _ stack' pos' input' hnext hl' hat' =>
      left
      obtain ⟨hflag, hsig⟩ := next_flag hnext
      refine ⟨e, c', _, cs', hnext, absorb_emit hsig, ⟨q', stack', pos', input', .inl ?_, hl', hat'⟩, hsig⟩
      rw [hflag]
    | fin m a segs h1 h2 h3 h4 h5 h6 =>
      right; right
      obtain ⟨st', hw, heq⟩ := absorb_block (b := true) h2
      exact ⟨⟨h1, h6, a, segs, h3, h4, h5⟩, st', hw, heq⟩
  · right; left
    rw [hleads.absorb]
    obtain ⟨st', hw, heq⟩ := absorb_block (b := false) hctl
    exact ⟨hm, st', hw, heq⟩

theorem pull_skip {doc miss : Bytes} {all : List Top} {st : Status} {cs : List Bytes} {c : Cursor}
    (h : Sees doc all miss st cs c) :
    (∃ e c' st' cs', c.skip = some (e, c') ∧ pull st cs .skip = (.ok e, st', cs') ∧ Sees doc all miss st' cs' c' ∧
      e.eventType.isStreamSignal = false) ∨
    (miss ≠ [] ∧ ∃ st', Waiting st' ∧ pull st cs .skip = (.ok ION_STREAM_INCOMPLETE_EVENT, st', [])) ∨
    (c.skip = none ∧ pull st cs .skip = (.error .typeError, .dead, cs)) := by
  obtain ⟨q, stack, pos, input, hst, hl, hat⟩ := h
  by_cases hne : c.levels = []
  · right; right
    have : send st .skip = (.error .typeError, .dead) := by
      rcases hst with rfl | ⟨rfl, -⟩
      · simp [send, hne]
      · rfl
    refine ⟨by simp [Cursor.skip, hne], ?_⟩
    unfold pull
    rw [this]
    cases cs <;> rfl
  · obtain ⟨f, fs, r, rfl, hrem, hgets⟩ := skip_ends hl hat hne
    have hst' : st = .ready q (f :: fs) false := by
      rcases hst with rfl | ⟨-, h⟩
      · simp [hne]
      · exact absurd h hne
    have hsend : send st .skip = deliver (finish (startRead q (f :: fs) f.depth f.limit r true false .loop)) := by
      subst hst'
      simp only [send, Bool.false_eq_true, if_false, hrem]
      cases startRead q (f :: fs) f.depth f.limit r true false .loop <;> rfl
    unfold pull
    rw [hsend]
    rcases hgets with ⟨o', cs', hleads, e, c', q', pos', input', rfl, hskip, hl', hat'⟩ | ⟨hm, m, hctl, hleads⟩
    · left
      rw [hleads.absorb]
      obtain ⟨hflag, hsig⟩ := skip_flag hskip
      refine ⟨e, c', _, cs', hskip, absorb_emit hsig, ⟨q', fs, pos', input', .inl ?_, hl', hat'⟩, hsig⟩
      rw [hflag]
    · right; left
      rw [hleads.absorb]
      obtain ⟨st', hw, heq⟩ := absorb_block (b := false) hctl
      exact ⟨hm, st', hw, heq⟩

/-- A request as a read event. -/
def toCmd : Request → Cmd
  | .next => .next
  | .skip => .skip

theorem pulls_waiting {st : Status} (h : Waiting st) (rs : List Request) :
    ∀ e, (.ok e :: pulls st [] (rs.map toCmd)) = atEnd e rs := by
  intro e
  cases rs with
  | nil => rfl
  | cons r rs =>
    obtain ⟨q, stack, l, sk, b, t, rfl⟩ := h
    cases r <;> rfl

/-- The results of a reader that may run out of input. -/
inductive Reads (doc : Bytes) (all : List Top) (miss : Bytes) : Cursor → List Request → List (Except PyErr IonEvent) → Prop
  /-- no request is left -/
  | nil (c : Cursor) : Reads doc all miss c [] []
  /-- the request is answered as the specification says -/
  | next (c c' : Cursor) (e : IonEvent) (rs : List Request) (out : List (Except PyErr IonEvent)) : c.next = some (e, c') →
      Reads doc all miss c' rs out → Reads doc all miss c (.next :: rs) (.ok e :: out)
  | skip (c c' : Cursor) (e : IonEvent) (rs : List Request) (out : List (Except PyErr IonEvent)) : c.skip = some (e, c') →
      Reads doc all miss c' rs out → Reads doc all miss c (.skip :: rs) (.ok e :: out)
  /-- `SKIP` at the top level is refused -/
  | refused (c : Cursor) (rs : List Request) : c.skip = none → Reads doc all miss c (.skip :: rs) [.error .typeError]
  /-- `INCOMPLETE`: some of the document is missing -/
  | incomplete (c : Cursor) (r : Request) (rs : List Request) : miss ≠ [] →
      Reads doc all miss c (r :: rs) (atEnd { eventType := .incomplete } rs)
  /-- `STREAM_END`: what was available is a complete stream -/
  | streamEnd (c : Cursor) (rs : List Request) : CompleteBefore doc all miss c →
      Reads doc all miss c (.next :: rs) (atEnd { eventType := .streamEnd } rs)

theorem pulls_reads {doc miss : Bytes} {all : List Top} (rs : List Request) : ∀ {st : Status} {cs : List Bytes} {c : Cursor},
    Sees doc all miss st cs c → Reads doc all miss c rs (pulls st cs (rs.map toCmd)) := by
  induction rs with
  | nil => intro st cs c _; exact .nil c
  | cons r rs ih =>
    intro st cs c h
    cases r with
    | next =>
      simp only [List.map_cons, toCmd, pulls]
      rcases pull_next h with ⟨e, c', st', cs', h1, h2, h3, -⟩ | ⟨hm, st', hw, h2⟩ | ⟨hc, st', hw, h2⟩
      · rw [h2]; exact .next c c' e rs _ h1 (ih h3)
      · rw [h2]; simp only [pulls_waiting hw]; exact .incomplete c .next rs hm
      · rw [h2]; simp only [pulls_waiting hw]; exact .streamEnd c rs hc
    | skip =>
      simp only [List.map_cons, toCmd, pulls]
      rcases pull_skip h with ⟨e, c', st', cs', h1, h2, h3, -⟩ | ⟨hm, st', hw, h2⟩ | ⟨hc, h2⟩
      · rw [h2]; exact .skip c c' e rs _ h1 (ih h3)
      · rw [h2]; simp only [pulls_waiting hw]; exact .incomplete c .skip rs hm
      · rw [h2]; exact .refused c rs hc

/-- A chunking: non-empty pieces. -/
def Chunks (cs : List Bytes) (data : Bytes) : Prop := cs.flatten = data ∧ ∀ c ∈ cs, c ≠ []

theorem sees_init {doc avail miss : Bytes} {segs : List (List (Node Nat))} {cs : List Bytes} (hs : IsStream doc segs)
    (hr : ∀ items ∈ segs, AllScalars Readable items) (hdoc : doc = avail ++ miss) (hc : Chunks cs avail) :
    Sees doc (tops segs) miss init cs ⟨[], tops segs⟩ := by
  refine ⟨BufferQueue.empty, [rootFrame true], 0, doc, .inr ⟨rfl, rfl⟩, .start segs hs hr rfl, {}, rel_empty, rfl, ?_, hc.2⟩
  rw [hdoc, hc.1]; simp

theorem reads_complete {doc : Bytes} {all : List Top} {c : Cursor} {rs : List Request} {out : List (Except PyErr IonEvent)}
    (h : Reads doc all [] c rs out) : out = c.run rs := by
  induction h with
  | nil => rfl
  | next c c' e rs out h _ ih => simp only [Cursor.run, h, ih]
  | skip c c' e rs out h _ ih => simp only [Cursor.run, h, ih]
  | refused c rs h => simp only [Cursor.run, h]
  | incomplete c r rs h => exact absurd rfl h
  | streamEnd c rs h =>
    obtain ⟨h1, h2, -⟩ := h
    have h3 := h2 rfl
    obtain ⟨ls, ts⟩ := c
    simp only at h1 h3
    subst h1 h3
    simp [Cursor.run, Cursor.next]

/-- **C24** (for complete documents: a well-formed stream with values the reader can represent)  For every document that
is an Ion 1.0 stream, every division of it into chunks, and every sequence of `NEXT` and `SKIP` requests, the reader
delivers exactly what the specification says, which depends on the values of the document only. -/
theorem C24_reader_follows_document_partial (doc : Bytes) (segs : List (List (Node Nat))) (hs : IsStream doc segs)
    (hr : ∀ items ∈ segs, AllScalars Readable items) (cs : List Bytes) (hc : Chunks cs doc) (rs : List Request) :
    pulls init cs (rs.map toCmd) = Cursor.run ⟨[], tops segs⟩ rs :=
  reads_complete (pulls_reads rs (sees_init hs hr (by simp) hc))

end Ion.RawReader
