import Verif.Model.Sim

/-!
# Planner blocks as linked objects

Models again `/repo/pyGCodeDecode/gcode_interpreter.py` lines 63-82, 569-580 and 695-698 and
`/repo/pyGCodeDecode/planner_block.py` lines 204-246, this time with what `Model/Planner` and `Model/Sim`
abstract from: the blocks are objects on a heap with the links `prev_block` and `next_block`, the
correction reads and changes them through the links, and Python bounds how deeply calls can be nested.
-/

namespace PyGCD

/-- An exception of the code, or the `RecursionError` the interpreter raises when calls are nested too
deeply. -/
inductive CallErr where
  | py (e : PyErr)
  | recursion
  deriving DecidableEq, Repr

/-- planner_block.py:291-343: a `planner_block` object: its links, as addresses, and everything else. -/
structure BlockObj (K : Type) where
  data : Block K
  prev : Option Nat
  next : Option Nat
  deriving DecidableEq, Repr

/-- The objects by their addresses. Objects are never removed: a block which is not kept in the list only
becomes unreachable. -/
abbrev BlockHeap (K : Type) := List (BlockObj K)

/-- Follow a link. A link without object does not exist in Python. -/
def BlockHeap.deref {K : Type} (h : BlockHeap K) (i : Nat) : Except CallErr (BlockObj K) :=
  match h[i]? with
  | some o => .ok o
  | none => .error (.py .attributeError)

/-- Change everything but the links of an object. -/
def BlockHeap.store {K : Type} (h : BlockHeap K) (i : Nat) (b : Block K) : BlockHeap K :=
  h.modify i fun o => { o with data := b }

/-- planner_block.py:353-355: the setter of `next_block`. -/
def BlockHeap.setNext {K : Type} (h : BlockHeap K) (i j : Nat) : BlockHeap K :=
  h.modify i fun o => { o with next := some j }

/-- An exception of the code that is not caught here. -/
def raised {α : Type} : Except PyErr α → Except CallErr α
  | .ok a => .ok a
  | .error e => .error (.py e)

section
variable {K : Type} [Add K] [Sub K] [Mul K] [Div K] [Neg K] [LT K] [LE K] [DecidableLT K]
  [DecidableLE K] [DecidableEq K] [OfNat K 0] [OfNat K 1] [OfNat K 2] [OfNat K 4] [OfNat K 18]
  [OfNat K 180] [OfScientific K] [PyMath K]

/-- The block a link leads to, if there is one. -/
def BlockHeap.derefLink (h : BlockHeap K) : Option Nat → Except CallErr (Option (Block K))
  | none => .ok none
  | some i => do
    let o ← h.deref i
    .ok (some o.data)

/-- gcode_interpreter.py:73-82, the loop of `generate_planner_blocks` from the state behind `pa` on: `list`
are the addresses in `block_list`. Every state makes a new object (line 76) whose `prev_block` is the last
one in the list; it is put into the list, and linked from there, if it has segments. -/
def genLinked (fw : Firmware) : Option (PState K) → BlockHeap K → List Nat → List (PState K) →
    Except CallErr (BlockHeap K × List Nat)
  | _, h, list, [] => .ok (h, list)
  | pa, h, list, s :: rest => do
    let prev := list.getLast?
    let pb ← h.derefLink prev
    let b ← raised (mkBlock fw pa s rest pb)
    let new := h.length
    let h1 := h ++ [({ data := b, prev := prev, next := none } : BlockObj K)]
    if b.segments.isEmpty then genLinked fw (some s) h1 list rest
    else
      let h2 := match prev with
        | some p => h1.setNext p new
        | none => h1
      genLinked fw (some s) h2 (list ++ [new]) rest

/-- planner_block.py:226-237, the end of `self_correction` of the object `i` whose `next_block` is `j`: shift
the next block in time and compare the positions. -/
def shiftLinked (h : BlockHeap K) (i j : Nat) : Except CallErr (BlockHeap K) := do
  let self ← h.deref i
  let nx ← h.deref j
  let last ← raised self.data.lastSeg
  let nfirst ← raised nx.data.firstSeg
  let h := h.store j (nx.data.timeshift (last.tEnd - nfirst.tBegin))
  let self ← h.deref i
  let nx ← h.deref j
  let last ← raised self.data.lastSeg
  let nfirst ← raised nx.data.firstSeg
  if last.posEnd.eq nfirst.posBegin = true then .ok h
  else if (1e-12 : K) < (last.posEnd.sub nfirst.posBegin).norm3 then .error (.py .nameError)
  else .ok h

/-- planner_block.py:204-246 `self_correction` of the object `i`, when `limit` more calls can be nested. All
reads go through the links of the objects as they are at that moment; line 224 calls the method of the
object before. -/
def correctLinked : Nat → BlockHeap K → Nat → Except CallErr (BlockHeap K)
  | 0, _, _ => .error .recursion
  | limit + 1, h, i => do
    let self ← h.deref i
    match self.next with
    | none => .ok h
    | some j => do
      -- 207-217
      let nx ← h.deref j
      let last ← raised self.data.lastSeg
      let nfirst ← raised nx.data.firstSeg
      let flag := decide (¬ last.velEnd.norm3 = nfirst.velBegin.norm3) &&
        decide ((1e-12 : K) < pyAbs (last.velEnd.norm3 - nfirst.velBegin.norm3))
      -- 220-224
      let h ←
        if flag then do
          let pb ← h.derefLink self.prev
          let b ← raised (moveMaker self.data pb nfirst.velBegin.norm3)
          let h := h.store i b
          if b.blocktype = some .single then
            match self.prev with
            | none => .error (.py .attributeError)
            | some p => correctLinked limit h p
          else .ok h
        else .ok h
      shiftLinked h i j

/-- gcode_interpreter.py:569-580 `trajectory_self_correct`. -/
def correctLinkedAll (limit : Nat) : BlockHeap K → List Nat → Except CallErr (BlockHeap K)
  | h, [] => .ok h
  | h, i :: list => do
    let h ← correctLinked limit h i
    correctLinkedAll limit h list

/-- gcode_interpreter.py:686-698: generate and correct the blocks of a list of states; the objects and
`blocklist`. -/
def planLinked (limit : Nat) (fw : Firmware) (states : List (PState K)) :
    Except CallErr (BlockHeap K × List Nat) := do
  let (h, list) ← genLinked fw none [] [] states
  let h ← correctLinkedAll limit h list
  .ok (h, list)

end
end PyGCD
