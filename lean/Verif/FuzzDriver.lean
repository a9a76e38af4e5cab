/-!
# The fuzzing driver of Dr. Memory (C71)

Model of the callbacks of `/repo/drmemory/fuzzer.c` that run before and after
every iteration of the fuzz target: which calls are fuzzed, on which bytes each
iteration runs, when the target is repeated, the corpus, and the shadow state
that is put back for every iteration.

`drfuzz` (C70) calls `pre_fuzz` and `post_fuzz` and restores the arguments.  The
mutator is a library loaded at run time: it is a parameter, with the functions of
`drfuzz_mutator.h`.  The target is outside: it may leave anything in the buffer
and in the shadow memory.  Allocation always succeeds, and a started mutator never
fails to start.
-/

namespace Verif.FuzzDriver

/-- A byte, as a number. -/
abbrev Byte := Nat

/-- What must not happen.  `overflow`: a write past the input buffer; `overread`: a
read past a heap block; `uninit`: heap bytes used that were never written;
`noMutator`: a null mutator is used; `noBuffer`: a null buffer is used. -/
inductive Err where
  | overflow
  | overread
  | uninit
  | noMutator
  | noBuffer
  deriving DecidableEq, Repr

/-- A mutator library, `drfuzz_mutator_api_t`, drfuzz_mutator.h:95-155: started on a
seed; the next value, if it can give one; whether it says it has one; the current
value; and feedback. -/
structure Lib (M : Type) where
  start : List Byte → M
  hasNext : M → Bool
  next : M → Option (List Byte × M)
  current : M → List Byte
  feedback : M → Nat → M

/-- A file: what it holds, or `none` when it cannot be opened. -/
abbrev File := Option (List Byte)

/-- The options and the target descriptor, fuzzer.c:129-156 and optionsx.h:596-780.
`singleton` is the parsed `-fuzz_one_input`. -/
structure Cfg where
  offset : Nat := 0
  fixed : Nat := 0
  iters : Int := 100
  skip : Nat := 0
  singleton : Option (List Byte) := none
  coverage : Bool := false
  replace : Bool := false
  input : Option File := none
  corpus : Option (List File) := none
  corpusOut : Bool := false
  uninit : Bool := true

/-- The shadow of the argument registers, of the frame and of the input buffer. -/
structure Sh where
  regs : List Nat
  frame : List Nat
  buf : List Nat
  deriving DecidableEq, Repr

/-- What `shadow_state_t`, fuzzer.c:998-1004, keeps: `buf` is `none` when the buffer is
to be marked defined. -/
structure Saved where
  regs : List Nat
  frame : List Nat
  buf : Option (List Nat)
  deriving DecidableEq, Repr

/-- `fuzz_state_t` of one thread, fuzzer.c:87-114, with the current shadow.  `buf` is
the input buffer, the application's or the replacement. -/
structure T (M : Type) where
  rep : Bool := false
  idx : Nat := 0
  skip : Nat := 0
  mutr : Option M := none
  bbs : Nat := 0
  ci : Nat := 0
  mi : Nat := 0
  should : Bool := false
  useOrig : Bool := false
  buf : Option (List Byte) := none
  saved : Option Saved := none
  sh : Sh := ⟨[], [], []⟩

/-- The whole state: `fuzz_target.enabled`, `fuzz_target.tid`, `mutator_vec`, the
threads, which of them are in a call of the target, the files dumped to the corpus, and counts of what was allocated and
released. -/
structure St (M : Type) where
  enabled : Bool := true
  owner : Option Nat := none
  vec : List M := []
  th : Nat → T M
  busy : Nat → Bool := fun _ => false
  dumps : List (List Byte) := []
  allocs : Nat := 0
  frees : Nat := 0
  started : Nat := 0
  stopped : Nat := 0

/-- One thread's state replaced. -/
def St.set {M : Type} (s : St M) (t : Nat) (x : T M) : St M :=
  { s with th := fun u => if u = t then x else s.th u }

/-- The start: `thread_init`, fuzzer.c:1655-1673, for every thread. -/
def St.init (M : Type) (c : Cfg) : St M := { th := fun _ => { skip := c.skip } }

/-- What the target finds at the start of a call or of an iteration: whether it is
being fuzzed, the bytes of its buffer (their number is its size argument) and the
shadow. -/
structure Obs where
  fuzzed : Bool
  bytes : List Byte
  sh : Sh
  deriving DecidableEq, Repr

/-- Bytes written over a buffer from a position on. -/
def splice (b : List Byte) (off : Nat) (v : List Byte) : List Byte :=
  b.take off ++ v ++ b.drop (off + v.length)

/-- The size of the mutated part, `fuzzer_mutator_init`, fuzzer.c:1321-1325. -/
def windowLen (c : Cfg) (n : Nat) : Nat :=
  if c.fixed > 0 ∧ c.fixed < n - c.offset then c.fixed else n - c.offset

/-- The seed given to `drfuzz_mutator_start`, fuzzer.c:1341-1343. -/
def window (c : Cfg) (b : List Byte) : List Byte := (b.drop c.offset).take (windowLen c b.length)

/-- `load_fuzz_input`, fuzzer.c:634-694.  The buffer after it, whether a replacement
buffer was allocated (and the old one freed), or `none` when it returns 0. -/
def load (c : Cfg) (f : File) (b : List Byte) : Option (List Byte × Bool) :=
  match f with
  | none => none
  | some d =>
    if c.replace then
      if d.length = 0 then none
      else if b.length < d.length then some (d, true)
      else some (splice b 0 d, false)
    else
      if min b.length d.length = 0 then none
      else some (splice b 0 (d.take b.length), false)

/-- `find_target_buffer`, fuzzer.c:1230-1296, for a buffer the offset lies in. -/
def takeBuffer {M : Type} (c : Cfg) (s : St M) (t : Nat) (b : List Byte) : St M :=
  let s1 := s.set t { s.th t with buf := some b }
  if c.replace then { s1 with allocs := s1.allocs + 1 } else s1

/-- `free_target_buffer`, fuzzer.c:1298-1312. -/
def freeBuffer {M : Type} (c : Cfg) (s : St M) (t : Nat) : St M :=
  let had := (s.th t).buf.isSome
  let s1 := s.set t { s.th t with buf := none, idx := 0 }
  if c.replace ∧ had then { s1 with frees := s1.frees + 1 } else s1

/-- `fuzzer_mutator_exit`, fuzzer.c:1405-1411. -/
def mutExit {M : Type} (s : St M) (t : Nat) : St M :=
  match (s.th t).mutr with
  | none => s
  | some _ => { s.set t { s.th t with mutr := none } with stopped := s.stopped + 1 }

/-- `fuzzer_mutator_init`, fuzzer.c:1317-1348. -/
def mutInit {M : Type} (L : Lib M) (c : Cfg) (s : St M) (t : Nat) : Except Err (St M) :=
  match (s.th t).buf with
  | none => .error .noBuffer
  | some b =>
    let s1 := mutExit s t
    .ok { s1.set t { s1.th t with mutr := some (L.start (window c b)) } with
          started := s1.started + 1 }

/-- `apply_singleton_input`, fuzzer.c:1209-1228, its text parsed. -/
def applySingleton (v b : List Byte) : List Byte :=
  v.take b.length ++ List.replicate (b.length - v.length) 0

/-- `fuzzer_mutator_next`, fuzzer.c:1376-1389: the status of
`drfuzz_mutator_get_next_value` is not looked at. -/
def mutNext {M : Type} (L : Lib M) (c : Cfg) (x : T M) : Except Err (T M) :=
  match x.buf with
  | none => .error .noBuffer
  | some b =>
    match c.singleton with
    | some v => .ok { x with buf := some (applySingleton v b) }
    | none =>
      match x.mutr with
      | none => .error .noMutator
      | some m =>
        match L.next m with
        | none => .ok x
        | some (v, m') =>
          if c.offset + v.length ≤ b.length then
            .ok { x with buf := some (splice b c.offset v), mutr := some m' }
          else .error .overflow

/-- The shadow of a buffer that is marked defined, `shadow_set_range` to
`SHADOW_DEFINED`. -/
def allDefined (b : Option (List Byte)) : List Nat := List.replicate (b.getD []).length 0

/-- `shadow_state_init`, fuzzer.c:1117-1148. -/
def shadowInit {M : Type} (c : Cfg) (x : T M) (saveInput : Bool) : T M :=
  if c.uninit then
    if saveInput then { x with saved := some ⟨x.sh.regs, x.sh.frame, some x.sh.buf⟩ }
    else { x with saved := some ⟨x.sh.regs, x.sh.frame, none⟩,
                  sh := { x.sh with buf := allDefined x.buf } }
  else x

/-- `shadow_state_restore`, fuzzer.c:1150-1179. -/
def shadowRestore {M : Type} (c : Cfg) (x : T M) : T M :=
  if c.uninit then
    match x.saved with
    | none => x
    | some v => { x with sh := ⟨v.regs, v.frame,
        match v.buf with
        | some l => l
        | none => allDefined x.buf⟩ }
  else x

/-- `shadow_state_exit`, fuzzer.c:1179-1201. -/
def shadowExit {M : Type} (x : T M) : T M := { x with saved := none }

/-- The corpus files from the current one on, until one can be loaded,
fuzzer.c:1432-1446: the buffer, whether it was replaced, and how many files were
used up. -/
def nextFile (c : Cfg) (b : List Byte) : List File → Option (List Byte × Bool) × Nat
  | [] => (none, 0)
  | f :: fs =>
    match load c f b with
    | some r => (some r, 1)
    | none =>
      let (r, k) := nextFile c b fs
      (r, k + 1)

/-- The corpus phase of `pre_fuzz_corpus` when a file is loaded, fuzzer.c:1437-1445. -/
def corpusLoaded {M : Type} (L : Lib M) (c : Cfg) (s : St M) (t : Nat) (b : List Byte)
    (grown : Bool) (ci : Nat) : Except Err (St M) :=
  let s1 := s.set t { s.th t with buf := some b, ci := ci, mutr := none }
  let s2 := if grown then { s1 with allocs := s1.allocs + 1, frees := s1.frees + 1 } else s1
  match mutInit L c s2 t with
  | .error e => .error e
  | .ok s3 =>
    let x := s3.th t
    .ok (s3.set t { (if x.rep then shadowRestore c x else shadowInit c x false) with
                    should := false })

/-- The corpus phase when no file is left, fuzzer.c:1447-1455. -/
def corpusEmpty {M : Type} (L : Lib M) (c : Cfg) (s : St M) (t : Nat) (files : List File) :
    Except Err (St M) :=
  if files = [] ∨ s.vec = [] then
    match mutInit L c (s.set t { s.th t with useOrig := true }) t with
    | .error e => .error e
    | .ok s1 => .ok (s1.set t { shadowInit c (s1.th t) false with should := true })
  else .ok (s.set t { s.th t with should := true })

/-- The corpus phase, fuzzer.c:1429-1456. -/
def corpusPhase {M : Type} (L : Lib M) (c : Cfg) (s : St M) (t : Nat) (files : List File) :
    Except Err (St M) :=
  let x := s.th t
  if x.should then .ok s
  else
    match x.buf with
    | none => .error .noBuffer
    | some b =>
      match nextFile c b (files.drop x.ci) with
      | (some (b', grown), k) => corpusLoaded L c s t b' grown (x.ci + k)
      | (none, k) => corpusEmpty L c (s.set t { x with ci := x.ci + k }) t files

/-- The mutate phase, fuzzer.c:1459-1472.  The mutator is shared with `mutator_vec`:
its new state is written back. -/
def mutatePhase {M : Type} (L : Lib M) (c : Cfg) (s : St M) (t : Nat) : Except Err (St M) :=
  let x := s.th t
  if x.should ∧ s.vec ≠ [] then
    match s.vec[x.mi]? with
    | none => .error .noMutator
    | some m =>
      let mi' := if x.mi + 1 ≥ s.vec.length then 0 else x.mi + 1
      match mutNext L c { x with mutr := some m, mi := mi' } with
      | .error e => .error e
      | .ok x1 =>
        .ok { s.set t (shadowRestore c x1) with vec := s.vec.set x.mi (x1.mutr.getD m) }
  else .ok s

/-- What a fuzzed iteration finds. -/
def seen {M : Type} (x : T M) : Obs := ⟨true, x.buf.getD [], x.sh⟩

/-- `pre_fuzz_corpus`, fuzzer.c:1422-1480. -/
def preCorpus {M : Type} (L : Lib M) (c : Cfg) (s : St M) (t : Nat) (files : List File) :
    Except Err (St M × Obs) :=
  match corpusPhase L c s t files with
  | .error e => .error e
  | .ok s1 =>
    match mutatePhase L c s1 t with
    | .error e => .error e
    | .ok s2 => .ok (s2, seen (s2.th t))

/-- The start of a pass without a corpus, fuzzer.c:1514-1537, the input loaded. -/
def startPass {M : Type} (L : Lib M) (c : Cfg) (s : St M) (t : Nat) : Except Err (St M) :=
  match mutInit L c (s.set t (shadowInit c (s.th t) (!c.replace))) t with
  | .error e => .error e
  | .ok s1 =>
    if c.iters = 0 ∨ c.coverage then .ok s1
    else
      match mutNext L c (s1.th t) with
      | .error e => .error e
      | .ok x => .ok (s1.set t x)

/-- `pre_fuzz` for a call that is fuzzed, the buffer taken, without a corpus, for the
first iteration, fuzzer.c:1513-1546. -/
def prePlain {M : Type} (L : Lib M) (c : Cfg) (s : St M) (t : Nat) (b : List Byte) (sh : Sh) :
    Except Err (St M × Obs) :=
  match c.input with
  | none =>
    match startPass L c s t with
    | .error e => .error e
    | .ok s1 => .ok (s1, seen (s1.th t))
  | some f =>
    match load c f b with
    | none => .ok (freeBuffer c { s with enabled := false } t, ⟨false, b, sh⟩)
    | some (b', grown) =>
      let s1 := s.set t { s.th t with buf := some b' }
      let s2 := if grown then { s1 with allocs := s1.allocs + 1, frees := s1.frees + 1 } else s1
      match startPass L c s2 t with
      | .error e => .error e
      | .ok s3 => .ok (s3, seen (s3.th t))

/-- `pre_fuzz`, fuzzer.c:1483-1546: `b` is the application's buffer and `sh` the shadow
when the target is entered. -/
def pre {M : Type} (L : Lib M) (c : Cfg) (s0 : St M) (t : Nat) (b : List Byte) (sh : Sh) :
    Except Err (St M × Obs) :=
  let s := { s0 with owner := some (s0.owner.getD t) }
  if s.enabled = false ∨ (s.th t).skip > 0 ∨ s.owner ≠ some t then .ok (s, ⟨false, b, sh⟩)
  else if (s.th t).rep then
    match c.corpus with
    | some files => preCorpus L c s t files
    | none =>
      match mutNext L c (shadowRestore c (s.th t)) with
      | .error e => .error e
      | .ok x => .ok (s.set t x, seen x)
  else if c.offset ≥ b.length then
    .ok (s.set t { s.th t with skip := (s.th t).skip + 1 }, ⟨false, b, sh⟩)
  else
    let s1 := takeBuffer c (s.set t { s.th t with sh := sh }) t b
    match c.corpus with
    | some files => preCorpus L c s1 t files
    | none => prePlain L c s1 t b sh

/-- `fuzzer_mutator_copy`, fuzzer.c:1351-1374: `n` is `input_size`.  The current value
is written to the start of a block of `n` bytes; the new mutator is started on the
`n` bytes from the offset on. -/
def mutCopy {M : Type} (L : Lib M) (c : Cfg) (n : Nat) (m : M) : Except Err M :=
  let v := L.current m
  if n < v.length then .error .overflow
  else if c.offset > 0 then .error .overread
  else if v.length < n then .error .uninit
  else .ok (L.start v)

/-- The mutator that is added when an input found new blocks, fuzzer.c:1566-1569. -/
def copied {M : Type} (L : Lib M) (c : Cfg) (s : St M) (x : T M) (m : M) :
    Except Err (M × St M) :=
  if x.useOrig then .ok (m, s)
  else
    match mutCopy L c (x.buf.getD []).length m with
    | .error e => .error e
    | .ok m' => .ok (m', { s with started := s.started + 1 })

/-- The first part of `post_fuzz_corpus`, fuzzer.c:1558-1573: the mutators and the
corpus.  `bbs` is what `drfuzz_get_target_num_bbs` gives. -/
def collect {M : Type} (L : Lib M) (c : Cfg) (s : St M) (t : Nat) (bbs : Option Nat) :
    Except Err (St M) :=
  let x := s.th t
  match bbs with
  | none => .ok s
  | some n =>
    let dump (s : St M) : St M := { s with dumps := s.dumps ++ [x.buf.getD []] }
    if x.should = false then
      match x.mutr with
      | none => .error .noMutator
      | some m =>
        let s1 := { s with vec := s.vec ++ [m] }
        let s2 := if c.corpusOut ∧ n > x.bbs then dump s1 else s1
        .ok (s2.set t { x with bbs := n })
    else if n > x.bbs then
      match x.mutr with
      | none => .error .noMutator
      | some m =>
        match copied L c (dump s) x m with
        | .error e => .error e
        | .ok (m', s1) =>
          .ok ({ s1 with vec := s1.vec ++ [m'] }.set t { x with bbs := n, useOrig := false })
    else .ok (s.set t { x with bbs := n })

/-- `post_fuzz_corpus`, fuzzer.c:1549-1588. -/
def postCorpus {M : Type} (L : Lib M) (c : Cfg) (s : St M) (t : Nat) (bbs : Option Nat) :
    Except Err (St M × Bool) :=
  match collect L c s t bbs with
  | .error e => .error e
  | .ok s1 =>
    let x := s1.th t
    if c.iters > 0 then
      let s2 := s1.set t { x with idx := x.idx + 1 }
      if ((x.idx + 1 : Nat) : Int) < c.iters then
        .ok (s2.set t { s2.th t with rep := true }, true)
      else
        .ok ({ freeBuffer c (s2.set t (shadowExit { s2.th t with rep := false })) t with
               enabled := false }, false)
    else
      .ok ({ freeBuffer c (s1.set t (shadowExit { x with rep := false })) t with
             enabled := false }, false)

/-- `fuzzer_mutator_feedback`, fuzzer.c:1391-1403. -/
def feedback {M : Type} (L : Lib M) (c : Cfg) (x : T M) (bbs : Option Nat) : T M :=
  match bbs with
  | none => x
  | some n =>
    if c.coverage then
      let x1 := if x.rep ∧ n - x.bbs > 0 then
        { x with mutr := x.mutr.map (fun m => L.feedback m (n - x.bbs)) } else x
      { x1 with bbs := n }
    else x

/-- Whether the target is run again, fuzzer.c:1631-1641. -/
def again {M : Type} (L : Lib M) (c : Cfg) (x : T M) (m : M) : Bool :=
  match c.singleton with
  | some _ => false
  | none =>
    if c.iters > 0 then decide ((x.idx : Int) < c.iters) && L.hasNext m
    else if c.iters < 0 then L.hasNext m
    else x.rep

/-- The end of `post_fuzz` without a corpus, fuzzer.c:1623-1652. -/
def postPlain {M : Type} (L : Lib M) (c : Cfg) (s : St M) (t : Nat) (bbs : Option Nat) :
    Except Err (St M × Bool) :=
  let x0 := feedback L c (s.th t) bbs
  let x := { x0 with idx := x0.idx + 1 }
  match x.mutr with
  | none => .error .noMutator
  | some m =>
    let r := again L c x m
    let s1 := s.set t { x with rep := r }
    if r then .ok (s1, true)
    else .ok (freeBuffer c (mutExit (s1.set t (shadowExit (s1.th t))) t) t, false)

/-- `post_fuzz`, fuzzer.c:1590-1653; the leak scan is left out. -/
def post {M : Type} (L : Lib M) (c : Cfg) (s : St M) (t : Nat) (bbs : Option Nat) :
    Except Err (St M × Bool) :=
  let x := s.th t
  if s.enabled = false ∨ s.owner ≠ some t then .ok (s, false)
  else if x.skip > 0 then .ok (s.set t { x with skip := x.skip - 1 }, false)
  else
    match c.corpus with
    | some _ => postCorpus L c s t bbs
    | none => postPlain L c s t bbs

/-- What the target leaves when it returns: the bytes of the buffer, the shadow, and the
number of blocks seen so far. -/
structure Eff where
  bytes : Nat → Byte
  sh : Sh
  bbs : Option Nat

/-- A buffer after the target has run. -/
def after (f : Nat → Byte) (b : List Byte) : List Byte := (List.range b.length).map f

/-- The effect of the target on the buffer and the shadow. -/
def ran {M : Type} (x : T M) (e : Eff) : T M :=
  { x with buf := x.buf.map (after e.bytes), sh := e.sh }

/-- What can happen: a thread calls the target with a buffer, or the target returns. -/
inductive Ev where
  | call (t : Nat) (b : List Byte) (sh : Sh)
  | done (t : Nat) (e : Eff)

/-- The thread of an event. -/
def Ev.thread : Ev → Nat
  | .call t _ _ => t
  | .done t _ => t

/-- A thread enters or leaves the target. -/
def St.mark {M : Type} (s : St M) (t : Nat) (b : Bool) : St M :=
  { s with busy := fun u => if u = t then b else s.busy u }

/-- One event.  A return that is to be repeated enters the target again; the buffer
of the application is then that of the pass.  A target that calls itself is left
out (see `C70_recursion`): a call in a call, and a return without a call, change
nothing. -/
def step {M : Type} (L : Lib M) (c : Cfg) (s : St M) : Ev → Except Err (St M × List (Nat × Obs))
  | .call t b sh =>
    if s.busy t then .ok (s, [])
    else
      match pre L c s t b sh with
      | .error e => .error e
      | .ok (s1, o) => .ok (s1.mark t true, [(t, o)])
  | .done t e =>
    if s.busy t then
      match post L c (s.set t (ran (s.th t) e)) t e.bbs with
      | .error x => .error x
      | .ok (s1, false) => .ok (s1.mark t false, [])
      | .ok (s1, true) =>
        match pre L c s1 t ((s1.th t).buf.getD []) e.sh with
        | .error x => .error x
        | .ok (s2, o) => .ok (s2, [(t, o)])
    else .ok (s, [])

/-- A run. -/
def run {M : Type} (L : Lib M) (c : Cfg) :
    St M → List Ev → Except Err (St M × List (Nat × Obs))
  | s, [] => .ok (s, [])
  | s, e :: es =>
    match step L c s e with
    | .error x => .error x
    | .ok (s1, o1) =>
      match run L c s1 es with
      | .error x => .error x
      | .ok (s2, o2) => .ok (s2, o1 ++ o2)

end Verif.FuzzDriver
