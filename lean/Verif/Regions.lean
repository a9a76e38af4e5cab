import Verif.Loop
import Verif.RedBlack

/-!
# Heap regions (common/heap.c) and the table of anonymous mappings (drmemory/alloc_drmem.c)

Both keep their regions in an interval tree (`Verif.RB`).  The payload of a heap region node is
modelled by its `flags` (common/heap.c:726-732; the Windows heap handle is left out), so cloning
the payload (common/heap.c:800-808) is copying a number.  Callbacks, locks and statistics are left
out.  A result of `none` means that a tree operation would follow a `NIL` child (shown impossible).
`d` selects a debug build, as in `RB.insert`.
-/
namespace Verif.Regions
open Verif.RB

/-- Pointer subtraction, e.g. `end - start` (common/heap.c:795). -/
def sub64 (a b : Nat) : Nat := (a + W - b) % W

/-- Pointer addition, e.g. `base + size` (drmemory/alloc_drmem.c:284). -/
def add64 (a b : Nat) : Nat := (a + b) % W

/-- `rb_insert` with the result ignored, as at common/heap.c:795, 835, 844, 873. -/
def ins (d : Bool) (n : Ent) (t : Tree) : Option Tree := (insert d n t).map (·.1)

/-- `heap_region_add` (common/heap.c:781-798). -/
def heapAdd (d : Bool) (start stop flags : Nat) (t : Tree) : Option Tree :=
  ins d ⟨start, sub64 stop start, flags⟩ t

/-- Delete node `n` and put back what lies outside `[start, stop)`: common/heap.c:832-848 and
drmemory/alloc_drmem.c:311-320. -/
def cut (d : Bool) (start stop : Nat) (n : Ent) (t : Tree) : Option Tree :=
  (delete n.base t).bind fun t =>
  (if n.base < start then ins d ⟨n.base, sub64 start n.base, n.client⟩ t else some t).bind fun t =>
  if n.last > stop then ins d ⟨stop, sub64 n.last stop, n.client⟩ t else some t

/-- `heap_region_remove` (common/heap.c:810-852). -/
def heapRemove (d : Bool) (start stop : Nat) (t : Tree) : Option (Tree × Bool) :=
  match overlapsNode start stop t with
  | none => some (t, false)
  | some n => (cut d start stop n t).map fun t => (t, true)

/-- `heap_region_adjust` (common/heap.c:854-877). -/
def heapAdjust (d : Bool) (start newEnd : Nat) (t : Tree) : Option (Tree × Bool) :=
  match inNode start t with
  | none => some (t, false)
  | some n => (delete n.base t).bind fun t =>
    (ins d ⟨n.base, sub64 newEnd n.base, n.client⟩ t).map fun t => (t, true)

/-- `heap_region_bounds` (common/heap.c:879-902): start, end and flags. -/
def heapBounds (pc : Nat) (t : Tree) : Option (Nat × Nat × Nat) :=
  match inNode pc t with
  | none => none
  | some n => some (n.base, n.last, n.client)

/-- `is_in_heap_region` (common/heap.c:904-912). -/
def isInHeap (pc : Nat) (t : Tree) : Bool := (inNode pc t).isSome

/-- `is_entirely_in_heap_region` (common/heap.c:914-932). -/
def isEntirelyInHeap (start stop : Nat) (t : Tree) : Bool :=
  match overlapsNode start stop t with
  | none => false
  | some n => decide (start ≥ n.base ∧ stop ≤ n.last)

/-- `get_heap_region_flags` (common/heap.c:934-948). -/
def heapFlags (pc : Nat) (t : Tree) : Nat :=
  match inNode pc t with
  | none => 0
  | some n => n.client

/-- `mmap_tree_add` (drmemory/alloc_drmem.c:273-293).  The last `rb_insert` is followed by an
`ASSERT` that it succeeded; the model goes on with the tree it leaves. -/
def mmapAdd (d : Bool) (base size : Nat) (t : Tree) : Option Tree :=
  match insert d ⟨base, size, 0⟩ t with
  | none => none
  | some (t, none) => some t
  | some (t, some n) =>
    (delete n.base t).bind fun t =>
    ins d ⟨if base < n.base then base else n.base,
      sub64 (if add64 base size > n.last then add64 base size else n.last)
        (if base < n.base then base else n.base), 0⟩ t

/-- One turn of the loop of `mmap_tree_remove` (drmemory/alloc_drmem.c:300-324). -/
def mmapRemoveStep (d : Bool) (base stop : Nat) (s : Tree × Bool) :
    (Tree × Bool) ⊕ Option (Tree × Bool) :=
  match overlapsNode base stop s.1 with
  | none => .inr (some s)
  | some n =>
    match cut d base stop n s.1 with
    | none => .inr none
    | some t => .inl (t, true)

/-- `mmap_tree_remove` (drmemory/alloc_drmem.c:295-327) returns `r`. -/
def MmapRemove (d : Bool) (base size : Nat) (t : Tree) (r : Option (Tree × Bool)) : Prop :=
  Runs (mmapRemoveStep d base (add64 base size)) (t, false) r

/-- `mmap_anon_lookup` (drmemory/alloc_drmem.c:329-341): base and size. -/
def mmapLookup (addr : Nat) (t : Tree) : Option (Nat × Nat) :=
  match inNode addr t with
  | none => none
  | some n => some (n.base, n.size)

end Verif.Regions
