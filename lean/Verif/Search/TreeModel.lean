import Verif.Base
/-
Model of tsearch, tfind, tdelete, twalk, tdestroy: options/posix/generic/search.cpp:10-238.

A tree in memory is an inductive tree: a node carries its address `id`, its key, its two children and the stored
height `h`. Simplifications: the heap is a tree (no sharing), `h` is an unbounded integer, malloc succeeds and
returns the address given as argument, `compar` is a pure function.
The stack of slots (`frg::stack<struct node **>`) is the recursion stack: "pop and balance the next slot" is what a
recursive call's caller does if the returned flag is `true`.
-/
namespace Mlibc.Search
open Mlibc

/-- search.cpp:10-14 `struct node`; `nil` is the null pointer. -/
inductive Tree (κ : Type) where
  | nil
  | node (id : Nat) (key : κ) (l r : Tree κ) (h : Int)
  deriving DecidableEq, Repr

namespace Tree
variable {κ : Type}

/-- search.cpp:17-19 `height`. -/
def height : Tree κ → Int
  | nil => 0
  | node _ _ _ _ h => h

/-- `n->a[side]` -/
def child (l r : Tree κ) (side : Bool) : Tree κ := if side then r else l

/-- A node whose `a[side]` is `s` and whose `a[!side]` is `o`. -/
def mk (id : Nat) (key : κ) (side : Bool) (s o : Tree κ) (h : Int) : Tree κ :=
  if side then node id key o s h else node id key s o h

/-- search.cpp:21-49 `rotate`. Returns the new content of the slot and the returned difference. -/
def rotate (t : Tree κ) (side : Bool) : Res (Tree κ × Int) :=
  match t with
  | nil => .ub
  | node nid nkey nl nr nh =>
    match child nl nr side with
    | nil => .ub
    | node xid xkey xl xr _ =>
      let y := child xl xr (!side)
      let z := child xl xr side
      let other := child nl nr (!side)
      let hy := y.height
      if hy > z.height then
        match y with
        | nil => .ub
        | node yid ykey yl yr _ =>
          let n' := mk nid nkey side (child yl yr (!side)) other hy
          let x' := mk xid xkey side z (child yl yr side) hy
          .ok (mk yid ykey side x' n' (hy + 1), hy + 1 - nh)
      else
        let n' := mk nid nkey side y other (hy + 1)
        .ok (mk xid xkey side z n' (hy + 2), hy + 2 - nh)

/-- search.cpp:51-62 `balance_tree`. -/
def balance (t : Tree κ) : Res (Tree κ × Int) :=
  match t with
  | nil => .ub
  | node id key l r h =>
    let ha := l.height
    let hb := r.height
    if (ha - hb).natAbs < 2 then
      let h' := if ha < hb then hb + 1 else ha + 1
      .ok (node id key l r h', h' - h)
    else rotate t (decide (ha < hb))

/-- One slot of `while(nodes.size() && balance_tree(nodes.top())) nodes.pop()`: if the slots below have not stopped
the loop (`go`), balance this slot; go on iff balance_tree returned nonzero. -/
def balanceUp (t : Tree κ) (go : Bool) : Res (Tree κ × Bool) :=
  if go then do
    let (t, d) ← balance t
    return (t, decide (d ≠ 0))
  else return (t, false)

/-- search.cpp:65-94 `tsearch` on the tree in one slot: new content, the returned node, and whether the slot above
is to be balanced. `nid` is the address malloc returns. -/
def insert (cmp : κ → κ → Int) (k : κ) (nid : Nat) : Tree κ → Res (Tree κ × Nat × Bool)
  | nil => .ok (node nid k nil nil 1, nid, true)
  | node id key l r h =>
    let c := cmp k key
    if c = 0 then .ok (node id key l r h, id, false)
    else if c > 0 then do
      let (r, ret, go) ← insert cmp k nid r
      let (t, go) ← balanceUp (node id key l r h) go
      return (t, ret, go)
    else do
      let (l, ret, go) ← insert cmp k nid l
      let (t, go) ← balanceUp (node id key l r h) go
      return (t, ret, go)

/-- search.cpp:65-94 `tsearch` for non-null `rootp`. -/
def tsearch (cmp : κ → κ → Int) (k : κ) (nid : Nat) (t : Tree κ) : Res (Tree κ × Nat) := do
  let (t, ret, _) ← insert cmp k nid t
  return (t, ret)

/-- search.cpp:97-111 `tfind`. -/
def tfind (cmp : κ → κ → Int) (k : κ) : Tree κ → Option Nat
  | nil => none
  | node id key l r _ =>
    let c := cmp k key
    if c = 0 then some id
    else if c > 0 then tfind cmp k r else tfind cmp k l

/-- search.cpp:155-176 below the node's left child: removing the predecessor from the tree in the slot
`&pred_parent->a[1]` (never null). Returns the new content of the slot, the predecessor (address, key, stored
height) and whether the slot above on the stack is balanced. -/
def removeMax : Tree κ → Res (Tree κ × (Nat × κ × Int) × Bool)
  | nil => .ub
  | node id key l nil h => .ok (l, (id, key, h), true)
  | node id key l (node id' key' l' r' h') h => do
    let (r, pred, go) ← removeMax (node id' key' l' r' h')
    let (t, go) ← balanceUp (node id key l r h) go
    return (t, pred, go)

/-- search.cpp:133-187, the node `n` to be deleted is at the top slot: new content of the slot and whether the slot
above is balanced. -/
def removeNode (l r : Tree κ) : Res (Tree κ × Bool) :=
  match l, r with
  | nil, nil => .ok (nil, true)
  | l@(node ..), nil => balanceUp l true
  | nil, r@(node ..) => balanceUp r true
  | node pid pkey pl nil ph, r => balanceUp (node pid pkey pl r ph) true
  | node pid pkey pl pr ph, r => do
    let (pr', (qid, qkey, qh), go) ← removeMax pr
    balanceUp (node qid qkey (node pid pkey pl pr' ph) r qh) go

/-- search.cpp:113-191 `tdelete` on the tree in one slot: `none` if the key is absent, otherwise the new content, the
returned (possibly dangling) address, and whether the slot above is balanced. `parent` is `node_parent`. -/
def delete (cmp : κ → κ → Int) (k : κ) (parent : Option Nat) : Tree κ → Res (Option (Tree κ × Nat × Bool))
  | nil => .ok none
  | node id key l r h =>
    let c := cmp k key
    if c = 0 then do
      let (t, go) ← removeNode l r
      return some (t, parent.getD id, go)
    else if c > 0 then do
      match ← delete cmp k (some id) r with
      | none => return none
      | some (r, ret, go) =>
        let (t, go) ← balanceUp (node id key l r h) go
        return some (t, ret, go)
    else do
      match ← delete cmp k (some id) l with
      | none => return none
      | some (l, ret, go) =>
        let (t, go) ← balanceUp (node id key l r h) go
        return some (t, ret, go)

/-- search.cpp:113-191 `tdelete`: new tree and returned pointer. -/
def tdelete (cmp : κ → κ → Int) (k : κ) (t : Tree κ) : Res (Tree κ × Option Nat) := do
  match ← delete cmp k none t with
  | none => return (t, none)
  | some (t, ret, _) => return (t, some ret)

/-- Test for the null pointer. -/
def isNil : Tree κ → Bool
  | nil => true
  | node .. => false

/-- `VISIT` of search.h. -/
inductive Visit where
  | preorder | postorder | endorder | leaf
  deriving DecidableEq, Repr

/-- search.cpp:193-238 `twalk`, the loop: the stack of `walk_node`s, the depth and the remaining number of
iterations allowed (exceeding it counts as `ub`). The result lists the calls of `action`: node address, key, visit,
depth. -/
def walkLoop : Nat → List (Tree κ × Visit) → Int → Res (List (Nat × κ × Visit × Int))
  | _, [], _ => .ok []
  | 0, _ :: _, _ => .ub
  | _ + 1, (nil, _) :: _, _ => .ub
  | fuel + 1, (node id key l r h, v) :: stack, depth =>
    let v := if l.isNil && r.isNil then .leaf else v
    let push (c : Tree κ) (v' : Visit) : Res (List (Nat × κ × Visit × Int)) :=
      if c.isNil then walkLoop fuel ((node id key l r h, v') :: stack) depth
      else walkLoop fuel ((c, .preorder) :: (node id key l r h, v') :: stack) (depth + 1)
    do
      let rest ← match v with
        | .endorder | .leaf => walkLoop fuel stack (depth - 1)
        | .preorder => push l .postorder
        | .postorder => push r .endorder
      return (id, key, v, depth) :: rest

/-- Number of nodes. -/
def size : Tree κ → Nat
  | nil => 0
  | node _ _ l r _ => l.size + r.size + 1

/-- search.cpp:193-238 `twalk`. -/
def twalk (t : Tree κ) : Res (List (Nat × κ × Visit × Int)) :=
  match t with
  | nil => .ok []
  | t => walkLoop (3 * t.size) [(t, .preorder)] 0

/-- search.cpp:240-257 `tdestroy`: the addresses and keys in the order in which `free_node(key)` and `free(node)`
are called. -/
def destroyLoop : Nat → Tree κ → List (Tree κ) → Res (List (Nat × κ))
  | _, nil, [] => .ok []
  | 0, _, _ => .ub
  | fuel + 1, nil, n :: stack =>
    match n with
    | nil => .ub
    | node id key _ r _ => do
      let rest ← destroyLoop fuel r stack
      return (id, key) :: rest
  | fuel + 1, node id key l r h, stack => destroyLoop fuel l (node id key l r h :: stack)

/-- search.cpp:240-257 `tdestroy`. -/
def tdestroy (t : Tree κ) : Res (List (Nat × κ)) := destroyLoop (2 * t.size) t []

end Tree
end Mlibc.Search
