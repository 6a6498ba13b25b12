import Verif.Props.Truncation
set_option linter.unusedSimpArgs false
/-!
# C26 (skipping) and C41 (padding)
-/
namespace Ion.Spec
open Ion Ion.Fields.Spec Ion.Scalars.Spec

/-- The place after some requests; `none` if one of them has no answer. -/
def Cursor.after (c : Cursor) : List Request → Option Cursor
  | [] => some c
  | .next :: rs => c.next.bind fun x => x.2.after rs
  | .skip :: rs => c.skip.bind fun x => x.2.after rs

theorem Cursor.run_append (rs0 rs : List Request) : ∀ {c c' : Cursor}, c.after rs0 = some c' →
    ∃ es : List IonEvent, es.length = rs0.length ∧ c.run rs0 = es.map .ok ∧ c.run (rs0 ++ rs) = es.map .ok ++ c'.run rs := by
  induction rs0 with
  | nil =>
    intro c c' h
    simp only [Cursor.after, Option.some.injEq] at h
    subst h
    exact ⟨[], rfl, rfl, rfl⟩
  | cons r rs0 ih =>
    intro c c' h
    cases r with
    | next =>
      cases hn : c.next with
      | none => simp [Cursor.after, hn] at h
      | some x =>
        obtain ⟨e, c1⟩ := x
        simp only [Cursor.after, hn, Option.bind_some] at h
        obtain ⟨es, h1, h2, h3⟩ := ih h
        exact ⟨e :: es, by simp [h1], by simp [Cursor.run, hn, h2], by simp [Cursor.run, hn, h3]⟩
    | skip =>
      cases hn : c.skip with
      | none => simp [Cursor.after, hn] at h
      | some x =>
        obtain ⟨e, c1⟩ := x
        simp only [Cursor.after, hn, Option.bind_some] at h
        obtain ⟨es, h1, h2, h3⟩ := ih h
        exact ⟨e :: es, by simp [h1], by simp [Cursor.run, hn, h2], by simp [Cursor.run, hn, h3]⟩

/-- Reading all remaining values of a container with `NEXT`. -/
theorem Cursor.advance : ∀ (k : Nat) (ty : CType) (ns : List (Node Nat)) (ls : List (CType × List (Node Nat))) (top : List Top),
    nodesSize ns = k → Cursor.after ⟨(ty, ns) :: ls, top⟩ (List.replicate k .next) = some ⟨(ty, []) :: ls, top⟩ := by
  intro k
  induction k using Nat.strongRecOn with
  | ind k ih =>
    intro ty ns ls top hk
    cases ns with
    | nil => simp only [nodesSize] at hk; subst hk; rfl
    | cons n ns =>
      cases n with
      | scalar f a x =>
        simp only [nodesSize] at hk
        obtain ⟨k', rfl⟩ : ∃ k', k = k' + 1 := ⟨k - 1, by omega⟩
        simp only [List.replicate_succ, Cursor.after, Cursor.next, Option.bind_some, Cursor.visit]
        exact ih k' (by omega) ty ns ls top (by omega)
      | cont f a ty2 items =>
        simp only [nodesSize] at hk
        have : List.replicate k Request.next
            = .next :: (List.replicate (nodesSize items) .next ++ (.next :: List.replicate (nodesSize ns) .next)) := by
          subst hk
          have hr : .next :: List.replicate (nodesSize ns) Request.next = List.replicate (nodesSize ns + 1) .next := rfl
          rw [hr, List.replicate_append_replicate, ← List.replicate_succ]
          congr 1
          omega
        rw [this]
        simp only [Cursor.after, Cursor.next, Option.bind_some, Cursor.visit]
        have app : ∀ (rs0 rs : List Request) (c : Cursor), c.after (rs0 ++ rs) = (c.after rs0).bind fun c' => c'.after rs := by
          intro rs0 rs
          induction rs0 with
          | nil => intro c; rfl
          | cons r rs0 ih =>
            intro c
            cases r <;> simp only [List.cons_append, Cursor.after]
            · cases c.next <;> simp [ih]
            · cases c.skip <;> simp [ih]
        rw [app, ih (nodesSize items) (by omega) ty2 items _ top rfl]
        simp only [Option.bind_some, Cursor.after, Cursor.next]
        exact ih (nodesSize ns) (by omega) ty ns ls top rfl

/-- `bs'` is `bs` with NOP padding inserted at one value position, at any depth; the lengths of the enclosing containers and
annotation wrappers are adjusted.  `items` are the values. -/
inductive Inserted : Bool → Bytes → Bytes → List (Node Nat) → Prop
  | here (s : Bool) (a b f p pb : Bytes) (xs ys : List (Node Nat)) : IsItems s a xs → IsItems s b ys → IsPadField s f →
      Framed 0 p pb → Inserted s (a ++ b) (a ++ (f ++ p) ++ b) (xs ++ ys)
  | inside (s : Bool) (a b f body body' inner inner' v v' : Bytes) (xs ys children : List (Node Nat)) (field : Option Nat)
      (ann : List Nat) (ty : CType) (ordered : Bool) : IsItems s a xs → IsItems s b ys → IsField s f field →
      Inserted (ty = .struct) body body' children →
      (ordered = true → (children.map fun c => c.field.getD 0).Pairwise (· ≤ ·)) →
      FramedContainer ty ordered inner body → FramedContainer ty ordered inner' body' →
      Wrapped ann inner v → Wrapped ann inner' v' →
      Inserted s (a ++ (f ++ v) ++ b) (a ++ (f ++ v') ++ b) (xs ++ .cont field ann ty children :: ys)

theorem Inserted.items {s : Bool} {bs bs' : Bytes} {items : List (Node Nat)} (h : Inserted s bs bs' items) :
    IsItems s bs items ∧ IsItems s bs' items := by
  induction h with
  | here s a b f p pb xs ys ha hb hf hp =>
    refine ⟨ha.append hb, ?_⟩
    rw [List.append_assoc]
    exact ha.append (.pad s f p pb b ys hf hp hb)
  | inside s a b f body body' inner inner' v v' xs ys ch field ann ty o ha hb hf _ ho hc hc' hw hw' ih =>
    simp only [List.append_assoc]
    refine ⟨ha.append ?_, ha.append ?_⟩
    · have := IsItems.cont s f body inner v b field ann ty ch ys o hf ih.1 ho hc hw hb; simpa using this
    · have := IsItems.cont s f body' inner' v' b field ann ty ch ys o hf ih.2 ho hc' hw' hb; simpa using this

end Ion.Spec

namespace Ion.RawReader
open Ion Ion.Spec Ion.Fields.Spec Ion.Scalars.Spec

/-- **C26**  The requests `rs0` lead into a container.  Then there is a number `k` of `NEXT`s such that `SKIP` and those `k`
`NEXT`s end with the same event, the end of that container, and all later requests `rs` are answered alike. -/
theorem C26_skip_equals_reading (doc : Bytes) (segs : List (List (Node Nat))) (hs : IsStream doc segs)
    (hr : ∀ items ∈ segs, AllScalars Readable items) (cs cs' : List Bytes) (hc : Chunks cs doc) (hc' : Chunks cs' doc)
    (rs0 rs : List Request) (c : Cursor) (hplace : Cursor.after ⟨[], tops segs⟩ rs0 = some c) (ty : CType)
    (ns : List (Node Nat)) (ls : List (CType × List (Node Nat))) (hin : c.levels = (ty, ns) :: ls) :
    ∃ (k : Nat) (before between : List IonEvent) (later : List (Except PyErr IonEvent)),
      pulls init cs ((rs0 ++ .skip :: rs).map toCmd) = before.map .ok ++ .ok (endEvent ls.length ty) :: later ∧
      pulls init cs' ((rs0 ++ (List.replicate k Request.next ++ Request.next :: rs)).map toCmd)
        = before.map .ok ++ (between.map .ok ++ .ok (endEvent ls.length ty) :: later) ∧
      before.length = rs0.length ∧ between.length = k := by
  obtain ⟨lv, top⟩ := c
  simp only at hin
  subst hin
  obtain ⟨before, h1, h2, -⟩ := Cursor.run_append rs0 [] hplace
  have hrun : ∀ rs, Cursor.run ⟨[], tops segs⟩ (rs0 ++ rs) = before.map .ok ++ Cursor.run ⟨(ty, ns) :: ls, top⟩ rs := by
    intro rs
    obtain ⟨es, g1, g2, g3⟩ := Cursor.run_append rs0 rs hplace
    rw [g3]
    congr 1
    rw [← g2, h2]
  obtain ⟨between, b1, -, b3⟩ := Cursor.run_append (List.replicate (nodesSize ns) .next) (.next :: rs) (Cursor.advance _ ty ns ls top rfl)
  refine ⟨nodesSize ns, before, between, Cursor.run ⟨ls, top⟩ rs, ?_, ?_, h1, by simpa using b1⟩
  · rw [C24_reader_follows_document_partial doc segs hs hr cs hc, hrun]; simp only [Cursor.run, Cursor.skip]
  · rw [C24_reader_follows_document_partial doc segs hs hr cs' hc', hrun, b3]; simp only [Cursor.run, Cursor.next]

/-- **C41**  Padding is inserted into the part `bs` of a document, at the top level or at any depth.  The events are the same,
for all chunks and all requests. -/
theorem C41_padding_invisible (pre bs bs' post : Bytes) (segs0 segs1 : List (List (Node Nat))) (last items tail : List (Node Nat))
    (hpre : IsStream pre (segs0 ++ [last])) (hins : Inserted false bs bs' items) (tl post' : Bytes) (hpost : post = tl ++ post')
    (htl : IsItems false tl tail) (hpost' : IsStream post' segs1)
    (hr : ∀ its ∈ segs0 ++ [last ++ items ++ tail] ++ segs1, AllScalars Readable its)
    (cs cs' : List Bytes) (hc : Chunks cs (pre ++ bs ++ post)) (hc' : Chunks cs' (pre ++ bs' ++ post)) (rs : List Request) :
    pulls init cs (rs.map toCmd) = pulls init cs' (rs.map toCmd) := by
  obtain ⟨h1, h2⟩ := hins.items
  have key : ∀ b, IsItems false b items → IsStream (pre ++ b ++ post) (segs0 ++ [last ++ items ++ tail] ++ segs1) := by
    intro b hb
    have := ((hpre.extend hb).extend htl).append hpost'
    rw [hpost]
    simpa using this
  rw [C24_reader_follows_document_partial _ _ (key bs h1) hr cs hc, C24_reader_follows_document_partial _ _ (key bs' h2) hr cs' hc']

/-! ### The hypotheses can be met -/

/-- `[true]` -/
def exampleItems : List (Node Nat) := [.cont none [] .list [.scalar none [] (.bool true)]]

theorem example_items : IsItems false [0xB1, 0x11] exampleItems :=
  .cont false [] [0x11] [0xB1, 0x11] [0xB1, 0x11] [] none [] .list [.scalar none [] (.bool true)] [] false .none
    (.scalar false [] [0x11] [0x11] [] none [] (.bool true) [] .none (.bool true) (.bare _) (.nil _)) (by simp)
    (.list _ _ _ (.short 0xB1 [0x11] (by decide) (by decide))) (.bare _) (.nil _)

theorem example_stream : IsStream [0xE0, 0x01, 0x00, 0xEA, 0xB1, 0x11] [exampleItems] :=
  .segment [0xB1, 0x11] [] exampleItems [] example_items .nil

theorem example_readable : ∀ items ∈ [exampleItems], AllScalars Readable items := by
  intro items h
  simp only [List.mem_singleton] at h
  subst h
  exact .cont _ _ _ _ _ (.scalar _ _ _ _ trivial .nil) .nil

example : pulls init [[0xE0, 0x01], [0x00, 0xEA, 0xB1], [0x11]] ([Request.next, .next, .skip].map toCmd)
    = Cursor.run ⟨[], tops [exampleItems]⟩ [.next, .next, .skip] :=
  C24_reader_follows_document_partial _ _ example_stream example_readable _ ⟨rfl, by decide⟩ _

/-- C25: the list is cut after its first octet. -/
example : .ok { eventType := .streamEnd } ∉ pulls init [[0xE0, 0x01, 0x00], [0xEA, 0xB1]] ([Request.next, .next, .next].map toCmd) :=
  (C25_truncation [0xE0, 0x01, 0x00, 0xEA] [0xB1] [0x11] [] (.cont none [] .list [.scalar none [] (.bool true)]) [exampleItems] [[]]
    example_stream example_readable (.segment [] [] [] [] (.nil _) .nil)
    (.cont [0x11] [0xB1, 0x11] _ [] .list _ false
      (.scalar false [] [0x11] [0x11] [] none [] (.bool true) [] .none (.bool true) (.bare _) (.nil _)) (by simp)
      (.list _ _ _ (.short 0xB1 [0x11] (by decide) (by decide))) (.bare _))
    (by simp) (by simp) _ ⟨rfl, by decide⟩ _).1

/-- C26: `SKIP` inside the list. -/
example := C26_skip_equals_reading _ _ example_stream example_readable [[0xE0, 0x01, 0x00], [0xEA, 0xB1, 0x11]] [[0xE0, 0x01, 0x00, 0xEA, 0xB1, 0x11]]
  ⟨rfl, by decide⟩ ⟨rfl, by decide⟩ [.next, .next] [.next] ⟨[(.list, [.scalar none [] (.bool true)])], []⟩ rfl .list _ [] rfl

/-- C41: two octets of padding in the list. -/
example : pulls init [[0xE0, 0x01, 0x00, 0xEA], [0xB1, 0x11]] ([Request.next, .next, .next, .next, .next].map toCmd)
    = pulls init [[0xE0, 0x01, 0x00, 0xEA], [0xB3, 0x01, 0xFF, 0x11]] ([Request.next, .next, .next, .next, .next].map toCmd) :=
  C41_padding_invisible [0xE0, 0x01, 0x00, 0xEA] [0xB1, 0x11] [0xB3, 0x01, 0xFF, 0x11] [] [] [] [] exampleItems []
    (.segment [] [] [] [] (.nil _) .nil)
    (.inside false [] [] [] [0x11] [0x01, 0xFF, 0x11] [0xB1, 0x11] [0xB3, 0x01, 0xFF, 0x11] _ _ [] [] [.scalar none [] (.bool true)] none [] .list
      false (.nil _) (.nil _) .none
      (.here false [] [0x11] [] [0x01, 0xFF] [0xFF] [] [.scalar none [] (.bool true)] (.nil _)
        (.scalar false [] [0x11] [0x11] [] none [] (.bool true) [] .none (.bool true) (.bare _) (.nil _)) rfl
        (.short 0x01 [0xFF] (by decide) (by decide)))
      (by simp) (.list _ _ _ (.short 0xB1 [0x11] (by decide) (by decide)))
      (.list _ _ _ (.short 0xB3 [0x01, 0xFF, 0x11] (by decide) (by decide))) (.bare _) (.bare _))
    [] [] rfl (.nil _) .nil (by simpa using example_readable) _ _ ⟨rfl, by decide⟩ ⟨rfl, by decide⟩ _

end Ion.RawReader
