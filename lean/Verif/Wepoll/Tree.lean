import Mathlib.Data.List.Basic
import Mathlib.Data.List.Perm.Basic
import Mathlib.Data.List.Nodup

/-!
# The search tree of src/wepoll.c (1958-2170): model

On Windows every epoll set keeps its sockets, and the library keeps its epoll sets, in a red-black tree of nodes linked by
pointers.  The model has the memory cell by cell: a pointer is `none` (null) or the number of a node, `Node` has the five fields of
`tree_node_t`.  Following a null pointer gives `none` (undefined behaviour).  The macros of the C code take the two sides `cis` and
`trans`; here the side is a `Bool`, `false` is left.  Loops have fuel; running out of it gives `none`, and the theorems show that
this does not happen.
-/

namespace Verif.Wepoll.Tree

abbrev Ptr := Option Nat

/-- `tree_node_t`, src/wepoll.c:472-478. -/
structure Node where
  key : Nat
  left : Ptr
  right : Ptr
  parent : Ptr
  red : Bool

/-- The child on a side. -/
def Node.get (n : Node) (d : Bool) : Ptr := if d then n.right else n.left

def Node.set (n : Node) (d : Bool) (x : Ptr) : Node := if d then { n with right := x } else { n with left := x }

/-- The memory and the field `root` of `tree_t`. -/
structure St where
  mem : Nat → Node
  root : Ptr

/-- Assignments. -/
def upd (m : Nat → Node) (p : Nat) (n : Node) : Nat → Node := fun x => if x = p then n else m x

def St.setCh (st : St) (p : Nat) (d : Bool) (x : Ptr) : St := { st with mem := upd st.mem p ((st.mem p).set d x) }

def St.setPar (st : St) (p : Nat) (x : Ptr) : St := { st with mem := upd st.mem p { st.mem p with parent := x } }

def St.setRed (st : St) (p : Nat) (b : Bool) : St := { st with mem := upd st.mem p { st.mem p with red := b } }

/-- In a parent `g` (or in the root) the child `p` is replaced by `x`: src/wepoll.c:1971-1978 and 2100-2107. -/
def St.replace (st : St) (g : Ptr) (p : Nat) (x : Ptr) : St :=
  match g with
  | some g => if (st.mem g).left = some p then st.setCh g false x else st.setCh g true x
  | none => { st with root := x }

/-- An optional node gets a parent: `if (x) x->parent = p`. -/
def St.adopt (st : St) (x : Ptr) (p : Ptr) : St :=
  match x with
  | some x => st.setPar x p
  | none => st

/-- `TREE__ROTATE(cis, trans)`, src/wepoll.c:1966-1985. -/
def rotate (d : Bool) (st : St) (p : Nat) : Option St :=
  match (st.mem p).get (!d) with
  | none => none
  | some q =>
    let parent := (st.mem p).parent
    let st := st.replace parent p (some q)
    let st := st.setPar q parent
    let st := st.setPar p (some q)
    let st := st.setCh p (!d) ((st.mem q).get d)
    let st := st.adopt ((st.mem p).get (!d)) (some p)
    some (st.setCh q d (some p))

/-- The search in `tree_add`, src/wepoll.c:2026-2036: `some none` if the key is there, otherwise the node and the side where the new
node goes. -/
def descend : Nat → St → Nat → Nat → Option (Option (Nat × Bool))
  | 0, _, _, _ => none
  | n + 1, st, p, key =>
    if key < (st.mem p).key then
      match (st.mem p).left with
      | some x => descend n st x key
      | none => some (some (p, false))
    else if (st.mem p).key < key then
      match (st.mem p).right with
      | some x => descend n st x key
      | none => some (some (p, true))
    else some none

/-- `uncle && uncle->red`. -/
def isRed (st : St) (x : Ptr) : Bool :=
  match x with
  | some x => (st.mem x).red
  | none => false

/-- The rotations of `TREE__REBALANCE_AFTER_INSERT`, src/wepoll.c:2012-2020, with `node == parent->trans` or not: the new `node`. -/
def insRot (st : St) (d : Bool) (node pa g : Nat) : Option (St × Nat) :=
  if (st.mem pa).get (!d) = some node then
    match rotate d st pa with
    | none => none
    | some st =>
      match (st.mem pa).parent with
      | none => none
      | some pa' =>
        let st := (st.setRed pa' false).setRed g true
        match rotate (!d) st g with
        | none => none
        | some st => some (st, pa)
  else
    let st := (st.setRed pa false).setRed g true
    match rotate (!d) st g with
    | none => none
    | some st => some (st, node)

/-- The second loop of `tree_add`, src/wepoll.c:2045-2051, and `TREE__REBALANCE_AFTER_INSERT` (2002-2020). -/
def insFix : Nat → St → Nat → Option St
  | 0, _, _ => none
  | n + 1, st, node =>
    match (st.mem node).parent with
    | none => some st
    | some pa =>
      if (st.mem pa).red then
        match (st.mem pa).parent with
        | none => none
        | some g =>
          let d : Bool := if (st.mem g).left = some pa then false else true
          if isRed st ((st.mem g).get (!d)) then
            match (st.mem g).get (!d) with
            | none => none
            | some u => insFix n (((st.setRed pa false).setRed u false).setRed g true) g
          else
            match insRot st d node pa g with
            | none => none
            | some (st, node) => insFix n st node
      else some st

/-- `tree->root->red = false`. -/
def blackRoot (st : St) : Option St :=
  match st.root with
  | none => none
  | some r => some (st.setRed r false)

/-- `tree_add`, src/wepoll.c:2022-2055. -/
def treeAdd (fuel : Nat) (st : St) (node key : Nat) : Option (Int × St) :=
  match st.root with
  | none =>
    let st : St := { mem := upd st.mem node ⟨key, none, none, none, true⟩, root := some node }
    match insFix fuel st node with
    | none => none
    | some st =>
      match blackRoot st with
      | none => none
      | some st => some (0, st)
  | some r =>
    match descend fuel st r key with
    | none => none
    | some none => some (-1, st)
    | some (some (p, d)) =>
      let st := st.setCh p d (some node)
      let st : St := { st with mem := upd st.mem node ⟨key, none, none, some p, true⟩ }
      match insFix fuel st node with
      | none => none
      | some st =>
        match blackRoot st with
        | none => none
        | some st => some (0, st)

/-- `while (next->left) next = next->left`, src/wepoll.c:2095-2096. -/
def leftmost : Nat → St → Nat → Option Nat
  | 0, _, _ => none
  | n + 1, st, p =>
    match (st.mem p).left with
    | none => some p
    | some x => leftmost n st x

/-- `TREE__REBALANCE_AFTER_REMOVE`, src/wepoll.c:2057-2080, the first part: a black sibling. -/
def delSib (st : St) (d : Bool) (pa : Nat) : Option (St × Nat) :=
  match (st.mem pa).get (!d) with
  | none => none
  | some s =>
    if (st.mem s).red then
      match rotate d ((st.setRed s false).setRed pa true) pa with
      | none => none
      | some st =>
        match (st.mem pa).get (!d) with
        | none => none
        | some s => some (st, s)
    else some (st, s)

/-- The part which makes the outer child of the sibling red, src/wepoll.c:2068-2073. -/
def delOuter (st : St) (d : Bool) (pa s : Nat) : Option (St × Nat) :=
  if isRed st ((st.mem s).get (!d)) then some (st, s)
  else
    match (st.mem s).get d with
    | none => none
    | some x =>
      match rotate (!d) ((st.setRed x false).setRed s true) s with
      | none => none
      | some st =>
        match (st.mem pa).get (!d) with
        | none => none
        | some s => some (st, s)

/-- The last part, src/wepoll.c:2074-2077. -/
def delLast (st : St) (d : Bool) (pa s : Nat) : Option St :=
  match (st.mem s).get (!d) with
  | none => none
  | some x => rotate d (((st.setRed s (st.mem pa).red).setRed x false).setRed pa false) pa

/-- The loop of `tree_del`, src/wepoll.c:2137-2147: the final value of `node`. -/
def delFix : Nat → St → Ptr → Ptr → Option (St × Ptr)
  | 0, _, _, _ => none
  | n + 1, st, node, parent =>
    if node = st.root then some (st, node)
    else
      match parent with
      | none => none
      | some pa =>
        let d : Bool := if node = (st.mem pa).left then false else true
        match delSib st d pa with
        | none => none
        | some (st, s) =>
          if isRed st (st.mem s).left || isRed st (st.mem s).right then
            match delOuter st d pa s with
            | none => none
            | some (st, s) =>
              match delLast st d pa s with
              | none => none
              | some st => some (st, st.root)
          else
            let st := st.setRed s true
            if (st.mem pa).red then some (st, some pa)
            else delFix n st (some pa) (st.mem pa).parent

/-- `if (node) node->red = false`. -/
def blacken (st : St) (x : Ptr) : St :=
  match x with
  | some x => st.setRed x false
  | none => st

/-- The end of `tree_del`, src/wepoll.c:2127-2152: `red` is the colour that has gone, `node` took the place, `parent` is above it. -/
def delEnd (fuel : Nat) (st : St) (red : Bool) (node parent : Ptr) : Option St :=
  let st := st.adopt node parent
  if red then some st
  else if isRed st node then some (blacken st node)
  else
    match delFix fuel st node parent with
    | none => none
    | some (st, x) => some (blacken st x)

/-- `tree_del`, src/wepoll.c:2082-2153. -/
def treeDel (fuel : Nat) (st : St) (node : Nat) : Option St :=
  let parent := (st.mem node).parent
  match (st.mem node).left, (st.mem node).right with
  | none, right => delEnd fuel (st.replace parent node right) (st.mem node).red right parent
  | some l, none => delEnd fuel (st.replace parent node (some l)) (st.mem node).red (some l) parent
  | some l, some r =>
    match leftmost fuel st r with
    | none => none
    | some next =>
      let st := st.replace parent node (some next)
      let red := (st.mem next).red
      let st := st.setRed next (st.mem node).red
      let st := st.setCh next false (some l)
      let st := st.setPar l (some next)
      if next ≠ r then
        match (st.mem next).parent with
        | none => none
        | some pa =>
          let st := st.setPar next (st.mem node).parent
          let x := (st.mem next).right
          let st := st.setCh pa false x
          let st := st.setCh next true (some r)
          let st := st.setPar r (some next)
          delEnd fuel st red x (some pa)
      else
        let st := st.setPar next parent
        delEnd fuel st red (st.mem next).right (some next)

/-- `tree_find`, src/wepoll.c:2155-2166. -/
def treeFind : Nat → St → Ptr → Nat → Option Ptr
  | 0, _, _, _ => none
  | _ + 1, _, none, _ => some none
  | n + 1, st, some p, key =>
    if key < (st.mem p).key then treeFind n st (st.mem p).left key
    else if (st.mem p).key < key then treeFind n st (st.mem p).right key
    else some (some p)

/-- `tree_init`, src/wepoll.c:1958-1960. -/
def treeInit (mem : Nat → Node) : St := ⟨mem, none⟩

end Verif.Wepoll.Tree
