/-!
# Storing, counting and reporting errors

Model of the error table of drmemory/report.c and of `report_error`, `report_leak`, the leak
statistics checkpoint and the reset in a forked child.

`K` is the type of callstacks up to `packed_callstack_cmp` (see `Callstack.lean` for that function).
The hashtable (drcontainers, not in the repository) is only searched and added to, so the linked
list `error_head`, which holds the same entries, represents both.  All counters are 32 bits wide and
wrap.  Whether an error matches a suppression (`Suppress.lean`), lies in a module suppressed as a
whole, or counts as a likely false positive is part of the event, because it depends on symbols.
A suppression is given by a number and by whether it is a default one.  Everything between taking
and releasing `error_lock` is atomic; the throttling test at the start of both functions is made
part of it.  Error types are those of a non-Windows build.  Text output is the list of printed
reports; logging, pausing, crashing and dumping are left out.
-/
namespace Verif.Er

/-- `uint`. -/
abbrev U32 := BitVec 32

/-- `ERROR_UNADDRESSABLE` .. `ERROR_WARNING` (drmemory/report.c:94-101) are 0 to 3;
`ERROR_LEAK` is 4 (drmemory/report.c:102). -/
def LEAK : Nat := 4
/-- `ERROR_POSSIBLE_LEAK` (drmemory/report.c:103). -/
def POSSIBLE : Nat := 5
/-- `ERROR_REACHABLE_LEAK`, also `ERROR_MAX_LEAK` (drmemory/report.c:104-105). -/
def REACHABLE : Nat := 6
/-- `ERROR_MAX_VAL` (drmemory/report.c:106). -/
def MAXVAL : Nat := 7

/-- `type_is_leak` (drmemory/report.c:109-113). -/
def isLeak (t : Nat) : Bool := LEAK ≤ t && t ≤ REACHABLE

/-- `stored_error_t` (drmemory/report.c:234-249).  `supp` holds `suppressed`, `suppress_spec` and
`suppressed_by_default` together. -/
structure Err (K : Type) where
  typ : Nat
  key : K
  id : U32 := 0
  count : U32 := 0
  supp : Option (Nat × Bool) := none
  potential : Bool := false

/-- One report printed to the results file, the file of potential errors or stderr
(drmemory/report.c:2580-2594). -/
structure Report (K : Type) where
  typ : Nat
  key : K
  id : U32
  potential : Bool
deriving DecidableEq

/-- The options used. -/
structure Opts where
  reportMax : Int := 20000
  reportLeakMax : Int := 10000
  showDuplicates : Bool := false
  checkLeaks : Bool := true
  possibleLeaks : Bool := true
  showReachable : Bool := false
  ignoreEarlyLeaks : Bool := true

/-- The counters saved by `report_leak_stats_checkpoint` (drmemory/report.c:60-63, 166-168, 173). -/
structure Saved where
  uniq : Bool → Nat → U32 := fun _ _ => 0
  total : Bool → Nat → U32 := fun _ _ => 0
  bytes : Bool → Nat → U32 := fun _ _ => 0
  totalLeaks : Bool → U32 := fun _ => 0
  leaksIgnored : U32 := 0
  suppLeaks : Bool → U32 := fun _ => 0
  throttledLeaks : U32 := 0

/-- The global state (drmemory/report.c:46-57, 161-173, 261-274).  A Boolean index tells normal
(`false`) from potential (`true`) for `uniq`, `total`, `bytes`, `reported` and `totalLeaks`, and
user (`false`) from default (`true`) for `matched` and `suppLeaks`.  `used` and `specBytes` are
the fields `count_used` and `bytes_leaked` of each suppression. -/
structure St (K : Type) where
  tbl : List (Err K) := []
  errorId : U32 := 0
  errorIdPot : U32 := 0
  uniq : Bool → Nat → U32 := fun _ _ => 0
  total : Bool → Nat → U32 := fun _ _ => 0
  bytes : Bool → Nat → U32 := fun _ _ => 0
  reported : Bool → U32 := fun _ => 0
  totalLeaks : Bool → U32 := fun _ => 0
  leaksIgnored : U32 := 0
  matched : Bool → U32 := fun _ => 0
  suppLeaks : Bool → U32 := fun _ => 0
  throttled : U32 := 0
  throttledLeaks : U32 := 0
  used : Nat → U32 := fun _ => 0
  specBytes : Nat → Nat := fun _ => 0
  saved : Saved := {}
  out : List (Report K) := []

/-- Add to one slot of a one-dimensional counter. -/
def bump {I : Type} [DecidableEq I] (f : I → U32) (i : I) (d : U32) : I → U32 :=
  fun j => if j = i then f j + d else f j

/-- Add to one slot of a two-dimensional counter. -/
def bump2 (f : Bool → Nat → U32) (b : Bool) (t : Nat) (d : U32) : Bool → Nat → U32 :=
  fun b' t' => if b' = b ∧ t' = t then f b' t' + d else f b' t'

/-- A detected error.  `wild` are the whole-module suppressions that cover it (empty also if
-log_suppressed_errors is on), `supp` the answer of `on_suppression_list`, `fp` that of
`error_is_likely_false_positive`. -/
structure Ev (K : Type) where
  typ : Nat
  key : K
  wild : List (Nat × Bool) := []
  supp : Option (Nat × Bool) := none
  fp : Bool := false
deriving DecidableEq

/-- A leak given to `report_leak`; `supp` and `fp` are as for errors. -/
structure Lk (K : Type) where
  key : K
  size : Nat
  indirect : Nat := 0
  early : Bool := false
  reachable : Bool := false
  maybe : Bool := false
  known : Bool := true
  countReachable : Bool := true
  showReachable : Bool := true
  supp : Option (Nat × Bool) := none
  fp : Bool := false

variable {K : Type} [DecidableEq K]

/-- `stored_error_cmp` against a key (drmemory/report.c:309-317). -/
def Err.is (e : Err K) (t : Nat) (k : K) : Bool := e.typ = t && e.key = k

/-- `hashtable_lookup(&error_table, ..)` (drmemory/report.c:2215). -/
def St.find (s : St K) (t : Nat) (k : K) : Option (Err K) := s.tbl.find? (·.is t k)

/-- Write back the entry of a key through its pointer. -/
def St.put (s : St K) (e : Err K) : St K :=
  { s with tbl := s.tbl.map fun x => if x.is e.typ e.key then e else x }

/-- `acquire_error_number` (drmemory/report.c:2099-2108). -/
def acquire (s : St K) (e : Err K) : St K × Err K :=
  let s1 := if e.potential then { s with errorIdPot := s.errorIdPot + 1 }
            else { s with errorId := s.errorId + 1 }
  let e1 := { e with id := if e.potential then s1.errorIdPot else s1.errorId }
  let s2 := { s1 with uniq := bump2 s1.uniq e.potential e.typ 1 }
  (s2.put e1, e1)

/-- `record_error` after the callstack was recorded or cloned (drmemory/report.c:2199-2228). -/
def record (s : St K) (t : Nat) (k : K) : St K × Err K :=
  let r : St K × Err K := match s.find t k with
    | some e => (s, e)
    | none => let e : Err K := { typ := t, key := k }
              ({ s with tbl := s.tbl ++ [e] }, e)
  let e := { r.2 with count := r.2.count + 1 }
  let s1 := r.1.put e
  (if e.supp.isNone then { s1 with total := bump2 s1.total e.potential t 1 } else s1, e)

/-- One suppression matched by `report_in_suppressed_module` (drmemory/report.c:1186-1196). -/
def wildMatch (s : St K) (p : Nat × Bool) : St K :=
  { s with matched := bump s.matched p.2 1, used := bump s.used p.1 1 }

/-- The part of `report_error` for the first occurrence (drmemory/report.c:2816-2846); the second
component is `reporting`.  `on_suppression_list` counts the match (drmemory/report.c:1127). -/
def firstError (s : St K) (err : Err K) (e : Ev K) : St K × Err K × Bool :=
  match e.supp with
  | some p =>
      let err1 := { err with supp := some p }
      (({ s with used := bump s.used p.1 1
                 matched := bump s.matched p.2 1
                 total := bump2 s.total false e.typ (-1) } : St K).put err1, err1, false)
  | none =>
      if e.fp then
        let err1 := { err with potential := true }
        let r := acquire s err1
        ({ r.1 with total := bump2 (bump2 r.1.total false e.typ (-1)) true e.typ 1
                    reported := bump r.1.reported true 1 }, r.2, true)
      else
        let r := acquire s err
        ({ r.1 with reported := bump r.1.reported false 1 }, r.2, true)

/-- `print_error_report` (drmemory/report.c:2580-2594). -/
def print (s : St K) (err : Err K) (reporting : Bool) : St K :=
  if reporting then { s with out := s.out ++ [⟨err.typ, err.key, err.id, err.potential⟩] } else s

/-- `report_error` (drmemory/report.c:2686-2857). -/
def reportError (o : Opts) (s : St K) (e : Ev K) : St K :=
  if 0 ≤ o.reportMax ∧ o.reportMax.toNat ≤ (s.reported false + s.reported true).toNat then
    { s with throttled := s.throttled + 1 }
  else if e.wild ≠ [] then e.wild.foldl wildMatch s
  else
    let r := record s e.typ e.key
    let s1 := r.1
    let err := r.2
    if err.count > 1 then
      let q : St K × Bool := match err.supp with
        | some p => ({ s1 with used := bump s1.used p.1 1, matched := bump s1.matched p.2 1 }, false)
        | none => (s1, true)
      if o.showDuplicates then print q.1 err q.2 else q.1
    else if err.count = 1 then
      let f := firstError s1 err e
      print f.1 f.2.1 f.2.2
    else s1

/-- The type of a leak (drmemory/report.c:3349-3366). -/
def leakType (o : Opts) (l : Lk K) : Nat :=
  if l.reachable && !l.early then REACHABLE
  else if !l.known then MAXVAL
  else if l.early && o.ignoreEarlyLeaks then MAXVAL
  else if l.maybe then POSSIBLE
  else LEAK

/-- The part of `report_leak` for a reported first occurrence (drmemory/report.c:3432-3476); the
Boolean is the final value of `reporting` (see also drmemory/report.c:3509-3514). -/
def leakShown (o : Opts) (s : St K) (err : Err K) (l : Lk K) (t : Nat) : St K × Err K × Bool :=
  let rep := !((l.maybe && !o.possibleLeaks) || (l.reachable && !o.showReachable))
  let set := err.potential
  let r : St K × Err K × Bool :=
    if err.id = 0 then
      let a : St K × Err K × Bool :=
        if l.fp then
          let err1 := { err with potential := true }
          let q := if rep then acquire s err1 else (s.put err1, err1)
          ({ q.1 with totalLeaks := bump (bump q.1.totalLeaks false (-1)) true 1
                      total := bump2 (bump2 q.1.total false t (-1)) true t 1 }, q.2, true)
        else
          let q := if rep then acquire s err else (s, err)
          (q.1, q.2, set)
      if rep then a
      else ({ a.1 with uniq := bump2 a.1.uniq a.2.1.potential t 1 }, a.2.1, a.2.2)
    else
      -- `ERROR_SET(err)` tests the pointer (drmemory/report.c:3472)
      ({ s with uniq := bump2 s.uniq true t 1 }, err, set)
  ({ r.1 with bytes := bump2 r.1.bytes r.2.2 t (BitVec.ofNat 32 (l.size + l.indirect)) }, r.2.1, rep)

/-- The part of `report_leak` for a suppressed first occurrence (drmemory/report.c:3477-3490). -/
def leakSupp (s : St K) (err : Err K) (l : Lk K) (t : Nat) (p : Nat × Bool) : St K :=
  let s1 : St K := ({ s with used := bump s.used p.1 1
                             suppLeaks := bump s.suppLeaks p.2 1
                             specBytes := fun j => if j = p.1
                               then s.specBytes j + (l.size + l.indirect) else s.specBytes j
                      } : St K).put { err with supp := some p }
  if err.supp.isNone then { s1 with total := bump2 s1.total false t (-1) } else s1

/-- `report_leak` from the point where the type is known, with check_leaks
(drmemory/report.c:3370-3490). -/
def leakChecked (o : Opts) (s : St K) (l : Lk K) (t : Nat) : St K :=
  let r := record s t l.key
  let s1 := r.1
  let err := r.2
  if err.count > 1 then
    match err.supp with
    | some p => { s1 with suppLeaks := bump s1.suppLeaks p.2 1
                          specBytes := fun j => if j = p.1
                            then s1.specBytes j + (l.size + l.indirect) else s1.specBytes j }
    | none => { s1 with bytes := bump2 s1.bytes err.potential t (BitVec.ofNat 32 (l.size + l.indirect)) }
  else
    match (if l.reachable && !l.showReachable then none else l.supp) with
    | some p => leakSupp s1 err l t p
    | none => let f := leakShown o s1 err l t
              print f.1 f.2.1 f.2.2

/-- `report_leak` (drmemory/report.c:3295-3527) with verbose below 2.  Without check_leaks there is
no entry for the leak, so the printed report has neither key nor number; it is not modelled. -/
def reportLeak (o : Opts) (s : St K) (l : Lk K) : St K :=
  if l.reachable && !l.countReachable then s
  else if !l.known then s
  else if 0 ≤ o.reportLeakMax ∧
      o.reportLeakMax.toNat ≤ (s.totalLeaks false + s.totalLeaks true).toNat then
    { s with throttledLeaks := s.throttledLeaks + 1 }
  else
    let t := leakType o l
    let s1 := { s with totalLeaks := bump s.totalLeaks false 1 }
    if t = MAXVAL then
      -- only an ignored early leak gets here (drmemory/report.c:3355-3359)
      { s1 with leaksIgnored := s1.leaksIgnored + 1 }
    else if o.checkLeaks then leakChecked o s1 l t
    else { s1 with uniq := bump2 s1.uniq false t 1
                   bytes := bump2 s1.bytes false t (BitVec.ofNat 32 (l.size + l.indirect)) }

/-- `report_leak_stats_checkpoint` (drmemory/report.c:3241-3259).  Slots of other types keep their
old saved value. -/
def checkpoint (s : St K) : St K :=
  { s with saved := {
      uniq := fun b t => if isLeak t then s.uniq b t else s.saved.uniq b t
      total := fun b t => if isLeak t then s.total b t else s.saved.total b t
      bytes := fun b t => if isLeak t then s.bytes b t else s.saved.bytes b t
      totalLeaks := s.totalLeaks
      leaksIgnored := s.leaksIgnored
      suppLeaks := s.suppLeaks
      throttledLeaks := s.throttledLeaks } }

/-- `report_leak_stats_revert` (drmemory/report.c:3264-3292). -/
def revert (s : St K) : St K :=
  { s with
      uniq := fun b t => if isLeak t then s.saved.uniq b t else s.uniq b t
      total := fun b t => if isLeak t then s.saved.total b t else s.total b t
      bytes := fun b t => if isLeak t then s.saved.bytes b t else s.bytes b t
      totalLeaks := s.saved.totalLeaks
      leaksIgnored := s.saved.leaksIgnored
      suppLeaks := s.saved.suppLeaks
      throttledLeaks := s.saved.throttledLeaks
      tbl := s.tbl.map fun e => if isLeak e.typ then { e with count := 0 } else e }

/-- `report_fork_init` (drmemory/report.c:1668-1713).  The second inner loop stops before
`ERROR_MAX_LEAK`.  What was printed stays printed. -/
def forkInit (s : St K) : St K :=
  { tbl := []
    errorId := 0, errorIdPot := 0
    uniq := fun b t => if t < MAXVAL then 0 else s.uniq b t
    total := fun b t => if t < MAXVAL then 0 else s.total b t
    bytes := fun b t => if LEAK ≤ t ∧ t < REACHABLE then 0 else s.bytes b t
    reported := fun _ => 0
    totalLeaks := fun _ => 0
    leaksIgnored := 0
    matched := fun _ => 0
    suppLeaks := fun _ => 0
    throttled := 0
    throttledLeaks := 0
    used := s.used
    specBytes := s.specBytes
    saved := { s.saved with
      uniq := fun b t => if LEAK ≤ t ∧ t < REACHABLE then 0 else s.saved.uniq b t
      total := fun b t => if LEAK ≤ t ∧ t < REACHABLE then 0 else s.saved.total b t
      bytes := fun b t => if LEAK ≤ t ∧ t < REACHABLE then 0 else s.saved.bytes b t }
    out := s.out }

end Verif.Er
