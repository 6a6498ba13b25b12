import Verif.Basic
/-!
# The writer's buffer tree

Models `amazon/ion/writer_buffer.py`.
-/
namespace Ion

/-- `writer_buffer.py:23-42 _Node` (parent pointers are never read and are left out). -/
inductive Node where
  | mk (value : Option Bytes) (children : List Node)

namespace Node

/-- `writer_buffer.py:29-33 add_child`. -/
def addChild : Node → Node → Node
  | .mk v cs, n => .mk v (cs ++ [n])

/-- `writer_buffer.py:35-42 add_leaf`: with no children add a child, else descend along `children[0]` to a node without
children and add the child there. -/
def addLeaf : Node → Node → Node
  | .mk v [], n => .mk v [n]
  | .mk v (c :: cs), n => .mk v (addLeaf c n :: cs)

mutual
/-- `writer_buffer.py:84-89 __depth_traverse`: children first, then the node's own value. -/
def depthTraverse : Node → List (Option Bytes)
  | .mk v cs => depthTraverseList cs ++ [v]
/-- The loop over children in `__depth_traverse`. -/
def depthTraverseList : List Node → List (Option Bytes)
  | [] => []
  | n :: ns => depthTraverse n ++ depthTraverseList ns
end

end Node

/-- `writer_buffer.py:45-142 BufferTree`.  In Python `start_container` attaches the new, empty node to the current one
at once and later operations mutate it through `__container_node`; here the current node is kept apart and is
attached to its parent by `end_container`.  Nothing can observe the tree in between: `drain` refuses to run then. -/
structure BufferTree where
  containerLengths : List Nat
  containerNodes : List Node
  containerNode : Node
  currentLength : Nat

namespace BufferTree

/-- `writer_buffer.py:77-82 __reset`. -/
def empty : BufferTree := ⟨[], [], .mk none [], 0⟩

/-- `writer_buffer.py:91-102 start_container`. -/
def startContainer (b : BufferTree) : BufferTree :=
  ⟨b.currentLength :: b.containerLengths, b.containerNode :: b.containerNodes, .mk none [], 0⟩

/-- `writer_buffer.py:104-120 end_container`. -/
def endContainer (b : BufferTree) (header : Bytes) : Except PyErr BufferTree :=
  match b.containerNodes, b.containerLengths with
  | [], _ => .error .valueError
  | _, [] => .error .indexError
  | parent :: nodes, parentLength :: lengths =>
    .ok ⟨lengths, nodes, parent.addChild (b.containerNode.addLeaf (.mk (some header) [])),
      parentLength + b.currentLength + header.length⟩

/-- `writer_buffer.py:122-129 add_scalar_value`. -/
def addScalarValue (b : BufferTree) (value : Bytes) : BufferTree :=
  { b with containerNode := b.containerNode.addChild (.mk (some value) []),
           currentLength := b.currentLength + value.length }

/-- `writer_buffer.py:131-142 drain`, run to its end: the yielded buffers and the reset tree. -/
def drain (b : BufferTree) : Except PyErr (List Bytes × BufferTree) :=
  if b.containerNodes.isEmpty then .ok (b.containerNode.depthTraverse.filterMap id, empty)
  else .error .valueError

/-- An operation on the buffer. -/
inductive Op where
  | scalar (value : Bytes)
  | start
  | end_ (header : Bytes)
  deriving DecidableEq, Repr

/-- One operation. -/
def step (b : BufferTree) : Op → Except PyErr BufferTree
  | .scalar v => .ok (b.addScalarValue v)
  | .start => .ok b.startContainer
  | .end_ h => b.endContainer h

/-- A history of operations. -/
def run (b : BufferTree) (ops : List Op) : Except PyErr BufferTree := ops.foldlM step b

end BufferTree
end Ion
