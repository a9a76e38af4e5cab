/-!
# The interval tree of common/redblack.c

A node of the C code has a pointer to its parent, and the loops of the code walk upwards through
these pointers.  Here a position in the tree is a subtree together with the path from it up to the
root (`Frame` list, nearest parent first); going to `x->parent` is taking the first frame.
`NIL(tree)` is `Tree.nil`.

* The `max` field is not represented: it is `NULL` in every node, because `rb_new_node` and
  `rb_tree_create` store `NULL` (common/redblack.c:112, 647) and the rotations only ever store the
  larger of two `max` fields (common/redblack.c:236-238, 267-269).
* `none` stands for a step whose C counterpart would dereference or recolour `NIL` as if it were a
  node; `RedBlackProps.lean` proves it never happens.
* Node identity is the node's base address; freeing payloads is not modelled.
* Addresses are naturals below `W = 2^64`; `base + size` wraps like the C pointer addition.
-/
namespace Verif.RB

/-- `rb_color` (common/redblack.c:32). -/
inductive Color | red | black
  deriving DecidableEq, Repr

/-- The data of a node: `base`, `size`, `client` (common/redblack.c:34-50). -/
structure Ent where
  base : Nat
  size : Nat
  client : Nat
  deriving DecidableEq, Repr

/-- One past the largest address. -/
def W : Nat := 2 ^ 64

/-- `base + size` as computed by the C code, e.g. common/redblack.c:525. -/
def Ent.last (e : Ent) : Nat := (e.base + e.size) % W

/-- `rb_node_t` without `parent` and `max` (common/redblack.c:34-50). -/
inductive Tree
  | nil
  | node (c : Color) (l : Tree) (e : Ent) (r : Tree)
  deriving DecidableEq, Repr

/-- Which child of its parent a node is. -/
inductive Dir | left | right
  deriving DecidableEq, Repr

/-- One step of the path to the root: the parent, on which side of it we are, and its other
child. -/
structure Frame where
  dir : Dir
  c : Color
  e : Ent
  sib : Tree
  deriving DecidableEq, Repr

/-- Colour of a node; `NIL` is black (common/redblack.c:644). -/
def Tree.color : Tree → Color
  | .nil => .black
  | .node c _ _ _ => c

/-- Assignment to `node->color`; never applied to `NIL` except for the final
`x->color = BLACK` (common/redblack.c:331), which leaves `NIL` black. -/
def Tree.paint (c : Color) : Tree → Tree
  | .nil => .nil
  | .node _ l e r => .node c l e r

/-- The parent node rebuilt around its child. -/
def Frame.up (f : Frame) (t : Tree) : Tree :=
  match f.dir with
  | .left => .node f.c t f.e f.sib
  | .right => .node f.c f.sib f.e t

/-- The whole tree, seen from a position. -/
def plug (t : Tree) : List Frame → Tree
  | [] => t
  | f :: k => plug (f.up t) k

/-- `rb_right_rotate` (common/redblack.c:211-238). -/
def rotR : Tree → Option Tree
  | .node cy (.node cx a x b) y c => some (.node cx a x (.node cy b y c))
  | _ => none

/-- `rb_left_rotate` (common/redblack.c:242-269). -/
def rotL : Tree → Option Tree
  | .node cx a x (.node cy b y c) => some (.node cy (.node cx a x b) y c)
  | _ => none

/-- `rb_find` (common/redblack.c:149-170). -/
def find (base : Nat) : Tree → Option Ent
  | .nil => none
  | .node _ l e r =>
    if base = e.base then some e else if base < e.base then find base l else find base r

/-- `get_next_helper` and `rb_find_client_node` (common/redblack.c:173-208). -/
def findClient (client : Nat) : Tree → Option Ent
  | .nil => none
  | .node _ l e r =>
    if e.client = client then some e
    else match findClient client l with
      | some e' => some e'
      | none => findClient client r

/-- The test of `bt_insert` on one node (common/redblack.c:425-434).  `debug` selects the overlap
test of debug builds; release builds only compare the bases. -/
def inTheWay (debug : Bool) (n e : Ent) : Bool :=
  if debug then
    decide ((e.base ≥ n.base ∧ e.base < n.last) ∨ (n.base ≥ e.base ∧ n.base < e.last))
  else decide (n.base = e.base)

/-- `bt_insert` (common/redblack.c:403-448): either the node that is in the way, or the place
(path) where the new node goes. -/
def btInsert (debug : Bool) (n : Ent) : Tree → List Frame → Ent ⊕ List Frame
  | .nil, k => .inr k
  | .node c l e r, k =>
    if inTheWay debug n e then .inl e
    else if n.base < e.base then btInsert debug n l (⟨.left, c, e, r⟩ :: k)
    else btInsert debug n r (⟨.right, c, e, l⟩ :: k)

/-- The loop of `rb_insert_helper` (common/redblack.c:460-497): `x` with its path; returns the
whole tree before the final `tree->root->color = BLACK`.  After the rotations `x`'s parent is
black, so the loop ends there. -/
def insFix : Tree → List Frame → Option Tree
  | x, [] => some x
  | x, [p] => if p.c = .red then none else some (plug x [p])
  | x, p :: g :: k =>
    if p.c = .red then
      let y := g.sib
      if y.color = .red then
        -- lines 462-468, 480-486; the C code also tests y != NIL, and NIL is black
        insFix ({ g with c := .red, sib := y.paint .black }.up ({ p with c := .black }.up x)) k
      else
        match g.dir with
        | .left =>
          -- lines 469-477
          (if p.dir = .right then rotL (p.up x) else some (p.up x)).bind fun pt =>
          (rotR ({ g with c := .red }.up (pt.paint .black))).bind fun gt =>
          some (plug gt k)
        | .right =>
          -- lines 487-495
          (if p.dir = .left then rotR (p.up x) else some (p.up x)).bind fun pt =>
          (rotL ({ g with c := .red }.up (pt.paint .black))).bind fun gt =>
          some (plug gt k)
    else some (plug x (p :: g :: k))

/-- `rb_insert` and `rb_insert_helper` (common/redblack.c:452-515): the new tree and the existing
node, if any. -/
def insert (debug : Bool) (n : Ent) (t : Tree) : Option (Tree × Option Ent) :=
  match btInsert debug n t [] with
  | .inl e => some (t, some e)
  | .inr k => (insFix (.node .red .nil n .nil) k).map fun t => (t.paint .black, none)

/-- What the second half of a round of `rb_delete_fixup` yields: a new `x` one level up, or the
final subtree (`x = tree->root`). -/
inductive Fix
  | up (x : Tree)
  | done (t : Tree)

/-- `rb_delete_fixup`, `x` a left child, sibling `w` already black
(common/redblack.c:284-301): parent colour, `x`, parent data, `w`. -/
def fixL (pc : Color) (x : Tree) (pe : Ent) : Tree → Option Fix
  | .nil => none
  | .node wc wl we wr =>
    if wl.color = .black ∧ wr.color = .black then
      some (.up (.node pc x pe (.node .red wl we wr)))
    else
      (if wr.color = .black then rotR (.node .red (wl.paint .black) we wr)
        else some (.node wc wl we wr)).bind fun w =>
      match w with
      | .nil => none
      | .node _ wl we wr =>
        (rotL (.node .black x pe (.node pc wl we (wr.paint .black)))).map .done

/-- `rb_delete_fixup`, `x` a right child (common/redblack.c:311-327). -/
def fixR (pc : Color) (x : Tree) (pe : Ent) : Tree → Option Fix
  | .nil => none
  | .node wc wl we wr =>
    if wr.color = .black ∧ wl.color = .black then
      some (.up (.node pc (.node .red wl we wr) pe x))
    else
      (if wl.color = .black then rotL (.node .red wl we (wr.paint .black))
        else some (.node wc wl we wr)).bind fun w =>
      match w with
      | .nil => none
      | .node _ wl we wr =>
        (rotR (.node .black (.node pc (wl.paint .black) we wr) pe x)).map .done

/-- `rb_delete_fixup` (common/redblack.c:273-332): `x` with its path; the whole tree afterwards.
When the sibling was red (lines 278-283, 305-310) the parent has just been painted red, so an `x`
one level up is red and the loop ends there.  `x = NIL` with a `NIL` sibling is where the test
`x == x->parent->left` would be ambiguous. -/
def delFix : Tree → List Frame → Option Tree
  | x, [] => some (x.paint .black)
  | x, p :: k =>
    if x.color = .black then
      if p.sib = .nil then none
      else match p.dir with
      | .left =>
        if p.sib.color = .red then
          match p.sib with
          | .nil => none
          | .node _ wl we wr =>
            (fixL .red x p.e wl).bind fun f => match f with
            | .up x' => some (plug (x'.paint .black) (⟨.left, .black, we, wr⟩ :: k))
            | .done t => some ((plug t (⟨.left, .black, we, wr⟩ :: k)).paint .black)
        else
          (fixL p.c x p.e p.sib).bind fun f => match f with
          | .up x' => delFix x' k
          | .done t => some ((plug t k).paint .black)
      | .right =>
        if p.sib.color = .red then
          match p.sib with
          | .nil => none
          | .node _ wl we wr =>
            (fixR .red x p.e wr).bind fun f => match f with
            | .up x' => some (plug (x'.paint .black) (⟨.right, .black, we, wl⟩ :: k))
            | .done t => some ((plug t (⟨.right, .black, we, wl⟩ :: k)).paint .black)
        else
          (fixR p.c x p.e p.sib).bind fun f => match f with
          | .up x' => delFix x' k
          | .done t => some ((plug t k).paint .black)
    else some (plug (x.paint .black) (p :: k))

/-- The descent to the leftmost node of a non-empty subtree, as in `rb_successor`
(common/redblack.c:336-345): its colour, data and right child, and the path to it. -/
def leftmost (c : Color) (l : Tree) (e : Ent) (r : Tree) (k : List Frame) :
    Color × Ent × Tree × List Frame :=
  match l with
  | .nil => (c, e, r, k)
  | .node c' l' e' r' => leftmost c' l' e' r' (⟨.left, c, e, r⟩ :: k)

/-- `rb_delete` of the node `node c l e r` at path `k` (common/redblack.c:357-400).  When the node
has two children its successor's data replaces its own, hence the changed frame below `k`. -/
def deleteAt (c : Color) (l : Tree) (r : Tree) (k : List Frame) : Option Tree :=
  match l, r with
  | .nil, r => if c = .black then delFix r k else some (plug r k)
  | l, .nil => if c = .black then delFix l k else some (plug l k)
  | l, .node rc rl re rr =>
    -- the frame of z is put in after the successor is known
    match leftmost rc rl re rr [] with
    | (yc, ye, yr, path) =>
      let k' := path ++ ⟨.right, c, ye, l⟩ :: k
      if yc = .black then delFix yr k' else some (plug yr k')

/-- `rb_delete(tree, rb_find(tree, base))`, the way every caller uses it: descend to the node as
`rb_find` does and delete it there.  If there is no such node the tree is unchanged. -/
def deleteGo (base : Nat) : Tree → List Frame → Option Tree
  | .nil, k => some (plug .nil k)
  | .node c l e r, k =>
    if base = e.base then deleteAt c l r k
    else if base < e.base then deleteGo base l (⟨.left, c, e, r⟩ :: k)
    else deleteGo base r (⟨.right, c, e, l⟩ :: k)

/-- `rb_delete` (common/redblack.c:357-400) of the node with the given base. -/
def delete (base : Nat) (t : Tree) : Option Tree := deleteGo base t []

/-- `rb_node_set_client` (common/redblack.c:90-96) on the node found by `rb_find`. -/
def setClient (base client : Nat) : Tree → Tree
  | .nil => .nil
  | .node c l e r =>
    if base = e.base then .node c l { e with client := client } r
    else if base < e.base then .node c (setClient base client l) e r
    else .node c l e (setClient base client r)

/-- `rb_in_node` (common/redblack.c:517-540). -/
def inNode (addr : Nat) : Tree → Option Ent
  | .nil => none
  | .node _ l e r =>
    if e.base ≤ addr ∧ addr < e.last then some e
    else if addr < e.base then inNode addr l else inNode addr r

/-- `rb_overlaps_node` (common/redblack.c:543-566). -/
def overlapsNode (start stop : Nat) : Tree → Option Ent
  | .nil => none
  | .node _ l e r =>
    if start < e.last ∧ e.base < stop then some e
    else if stop ≤ e.base then overlapsNode start stop l else overlapsNode start stop r

/-- `rb_next_higher_node` (common/redblack.c:568-589), with all `max` fields `NULL`. -/
def nextHigher (addr : Nat) : Tree → Option Ent
  | .nil => none
  | .node _ l e r =>
    if 0 ≤ addr ∧ addr < e.last then some e
    else if 0 ≤ addr then none
    else if addr < e.base then nextHigher addr l else nextHigher addr r

/-- `rb_next_lower_node` (common/redblack.c:591-609). -/
def nextLower (addr : Nat) : Tree → Option Ent
  | .nil => none
  | .node _ l e r =>
    if e.base ≤ addr ∧ (match r with
        | .nil => true
        | .node _ _ re _ => decide (addr < re.base)) = true then some e
    else if addr < e.base then nextLower addr l else nextLower addr r

/-- `rb_max_node` (common/redblack.c:611-621); `none` is the `NIL` sentinel. -/
def maxNode : Tree → Option Ent
  | .nil => none
  | .node _ _ e .nil => some e
  | .node _ _ _ r => maxNode r

/-- `rb_min_node` (common/redblack.c:623-633). -/
def minNode : Tree → Option Ent
  | .nil => none
  | .node _ .nil e _ => some e
  | .node _ l _ _ => minNode l

/-- `rb_iterate` / `iterate_helper` (common/redblack.c:663-686), with the callback as a state
transformer that also says whether to go on. -/
def iterate {σ : Type} (cb : Ent → σ → σ × Bool) : Tree → σ → σ × Bool
  | .nil, s => (s, true)
  | .node _ l e r, s =>
    match iterate cb l s with
    | (s, false) => (s, false)
    | (s, true) =>
      match cb e s with
      | (s, false) => (s, false)
      | (s, true) => iterate cb r s

end Verif.RB
