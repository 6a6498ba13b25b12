import Verif.BufferTree
/-!
# Properties C10 and C09 (buffer part): document order and exact lengths

The specification is a stack of chunk lists: the top is the content written so far in the innermost open container.
Ending a container puts its header in front of its content and appends both to the enclosing content.
-/
namespace Ion.BufferTree.Spec
open Ion

/-- Innermost content first; the last entry is the top-level content. -/
structure Doc where
  current : List Bytes
  enclosing : List (List Bytes)
  deriving DecidableEq

/-- Nothing written, no container open. -/
def Doc.empty : Doc := ⟨[], []⟩

/-- Document-order meaning of an operation; `none` if there is no container to end. -/
def Doc.step (d : Doc) : Op → Option Doc
  | .scalar v => some { d with current := d.current ++ [v] }
  | .start => some ⟨[], d.current :: d.enclosing⟩
  | .end_ h => match d.enclosing with
    | [] => none
    | parent :: rest => some ⟨parent ++ h :: d.current, rest⟩

/-- Document-order meaning of a history. -/
def Doc.run (d : Doc) : List Op → Option Doc
  | [] => some d
  | op :: ops => (d.step op).bind fun d => d.run ops

/-- Number of bytes in a list of chunks. -/
def size (chunks : List Bytes) : Nat := chunks.flatten.length

end Ion.BufferTree.Spec

namespace Ion.BufferTree
open Ion Spec

theorem traverseList_append (a b : List Node) :
    Node.depthTraverseList (a ++ b) = Node.depthTraverseList a ++ Node.depthTraverseList b := by
  induction a with
  | nil => simp [Node.depthTraverseList]
  | cons n a ih => simp [Node.depthTraverseList, ih]

theorem traverse_addLeaf : ∀ (n : Node) (h : Bytes),
    (n.addLeaf (.mk (some h) [])).depthTraverse = some h :: n.depthTraverse
  | .mk v [], h => by simp [Node.addLeaf, Node.depthTraverse, Node.depthTraverseList]
  | .mk v (c :: cs), h => by
    simp [Node.addLeaf, Node.depthTraverse, Node.depthTraverseList, traverse_addLeaf c h]

/-- The chunks under a node in traversal order. -/
def chunks (n : Node) : List Bytes := n.depthTraverse.filterMap id

theorem chunks_addChild (v : Option Bytes) (cs : List Node) (m : Node) (hv : v = none) :
    chunks ((Node.mk v cs).addChild m) = chunks (.mk v cs) ++ chunks m := by
  subst hv
  simp [chunks, Node.addChild, Node.depthTraverse, traverseList_append, Node.depthTraverseList, List.filterMap_append]

def valueless : Node → Prop | .mk v _ => v = none

/-- The refinement relation. -/
structure Rel (b : BufferTree) (d : Doc) : Prop where
  cur : chunks b.containerNode = d.current
  curv : valueless b.containerNode
  len : b.currentLength = size d.current
  nodes : b.containerNodes.map chunks = d.enclosing
  nodesv : ∀ n ∈ b.containerNodes, valueless n
  lens : b.containerLengths = d.enclosing.map size

theorem rel_empty : Rel empty Doc.empty :=
  ⟨by simp [chunks, empty, Node.depthTraverse, Node.depthTraverseList, Doc.empty], by simp [valueless, empty], rfl, rfl,
    by simp [empty], rfl⟩

theorem rel_step {b : BufferTree} {d : Doc} (h : Rel b d) (op : Op) :
    match d.step op with
    | none => b.step op = .error .valueError
    | some d' => ∃ b', b.step op = .ok b' ∧ Rel b' d' := by
  obtain ⟨h1, h2, h3, h4, h5, h6⟩ := h
  cases op with
  | scalar v =>
    simp only [Doc.step]
    refine ⟨_, rfl, ?_⟩
    cases hb : b.containerNode with
    | mk w cs =>
      rw [hb] at h1 h2
      refine ⟨?_, ?_, ?_, h4, h5, h6⟩
      · simp only [addScalarValue, hb]
        rw [chunks_addChild _ _ _ h2, h1]
        simp [chunks, Node.depthTraverse, Node.depthTraverseList]
      · simpa [addScalarValue, hb, Node.addChild, valueless] using h2
      · simp [addScalarValue, h3, size]
  | start =>
    simp only [Doc.step]
    refine ⟨_, rfl, ?_⟩
    refine ⟨?_, ?_, rfl, ?_, ?_, ?_⟩
    · simp [chunks, startContainer, Node.depthTraverse, Node.depthTraverseList]
    · simp [valueless, startContainer]
    · simp [startContainer, h1, h4]
    · intro n hn
      simp only [startContainer, List.mem_cons] at hn
      rcases hn with rfl | hn
      · exact h2
      · exact h5 n hn
    · simp [startContainer, h3, h6]
  | end_ hd =>
    simp only [Doc.step]
    cases hn : b.containerNodes with
    | nil =>
      rw [hn] at h4
      simp only [List.map_nil] at h4
      rw [← h4]
      simp [BufferTree.step, endContainer, hn]
    | cons p ns =>
      rw [hn] at h4 h5
      cases he : d.enclosing with
      | nil => rw [he] at h4; simp at h4
      | cons e es =>
        rw [he] at h4 h6
        simp only [List.map_cons, List.cons.injEq] at h4 h6
        simp only
        cases hl : b.containerLengths with
        | nil => rw [hl] at h6; simp at h6
        | cons l ls =>
          rw [hl] at h6
          simp only [List.cons.injEq] at h6
          refine ⟨_, by simp [BufferTree.step, endContainer, hn, hl]; rfl, ?_⟩
          have hp := h5 p (by simp)
          cases hpp : p with
          | mk w cs =>
            rw [hpp] at hp h4
            refine ⟨?_, ?_, ?_, h4.2, ?_, h6.2⟩
            · simp only
              rw [chunks_addChild _ _ _ hp, h4.1]
              congr 1
              simp only [chunks, traverse_addLeaf, List.filterMap_cons, id]
              congr 1
            · simpa [Node.addChild, valueless] using hp
            · simp only [h6.1, h3, size, List.flatten_append, List.flatten_cons, List.length_append]; omega
            · intro n hn'; exact h5 n (by simp [hn'])

theorem rel_run {b : BufferTree} {d : Doc} (h : Rel b d) (ops : List Op) :
    match d.run ops with
    | none => b.run ops = .error .valueError
    | some d' => ∃ b', b.run ops = .ok b' ∧ Rel b' d' := by
  induction ops generalizing b d with
  | nil => exact ⟨b, rfl, h⟩
  | cons op ops ih =>
    have hs := rel_step h op
    simp only [Doc.run]
    cases hd : d.step op with
    | none =>
      rw [hd] at hs
      simp only [Option.bind_none]
      simp only [BufferTree.run, List.foldlM_cons, bind, Except.bind]
      rw [hs]
    | some d1 =>
      rw [hd] at hs
      obtain ⟨b1, hb1, hr1⟩ := hs
      have := ih hr1
      simp only [Option.bind_some]
      have e : b.run (op :: ops) = b1.run ops := by
        simp only [BufferTree.run, List.foldlM_cons, bind, Except.bind, hb1]
      rw [e]; exact this

/-- **C10** For every history of operations on a fresh buffer: if the history ends more containers than it started, the
buffer raises `ValueError`; otherwise draining succeeds exactly when all containers are ended, yields the
document-order chunks (each header directly before its container's content, nothing lost or duplicated) and leaves a
fresh buffer. -/
theorem C10_drain_document_order (ops : List Op) :
    (Doc.empty.run ops = none → BufferTree.empty.run ops = .error .valueError) ∧
    (∀ d, Doc.empty.run ops = some d → ∃ b, BufferTree.empty.run ops = .ok b ∧
      (d.enclosing = [] → b.drain = .ok (d.current, BufferTree.empty)) ∧
      (d.enclosing ≠ [] → b.drain = .error .valueError)) := by
  have h := rel_run rel_empty ops
  refine ⟨fun hn => by rw [hn] at h; exact h, ?_⟩
  intro d hd
  rw [hd] at h
  obtain ⟨b, hb, hr⟩ := h
  refine ⟨b, hb, ?_, ?_⟩
  · intro he
    have : b.containerNodes = [] := by
      have := hr.nodes; rw [he] at this; simpa using this
    simp only [drain, this, List.isEmpty_nil, if_true]
    have := hr.cur
    simp only [chunks] at this
    rw [this]
  · intro he
    have : b.containerNodes ≠ [] := by
      intro hc; have := hr.nodes; rw [hc] at this; exact he (by simpa using this.symm)
    simp [drain, this]

/-- **C09** (buffer part) At every point of every history the reported length of the innermost open container is the
number of bytes of its content, however deeply it is nested and whatever was nested in it. -/
theorem C09_current_length_exact (ops : List Op) (d : Doc) (hd : Doc.empty.run ops = some d) :
    ∃ b, BufferTree.empty.run ops = .ok b ∧ b.currentLength = size d.current ∧
      b.containerLengths = d.enclosing.map size := by
  have h := rel_run rel_empty ops
  rw [hd] at h
  obtain ⟨b, hb, hr⟩ := h
  exact ⟨b, hb, hr.len, hr.lens⟩

/-- A nested history: header `[9]` precedes everything in its container, `[8]` what follows inside. -/
example : Doc.empty.run [.start, .start, .scalar [1], .end_ [8], .scalar [2], .end_ [9, 9], .scalar [3]]
    = some ⟨[[9, 9], [8], [1], [2], [3]], []⟩ := by decide

/-- The representation relation, for use by the raw writer's proofs. -/
theorem run_repr (ops : List Op) (d : Doc) (hd : Doc.empty.run ops = some d) :
    ∃ b, BufferTree.empty.run ops = .ok b := by
  obtain ⟨b, hb, _⟩ := C09_current_length_exact ops d hd
  exact ⟨b, hb⟩

end Ion.BufferTree
