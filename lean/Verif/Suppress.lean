import Verif.GlobProps
/-!
# Suppressions (drmemory/report.c)

Model of suppression matching (979-1150), of the generated suppression text (923-950) and of the
parser of the Dr. Memory suppression format (405-422, 588-676, 678-795, 798-889).
Calls to `text_matches_pattern` are modelled by `globB`, the executable form of the specification
proved for that function in C01 (`globB_iff`).
-/
namespace Verif.Suppress

abbrev Bytes := List UInt8

/-- Value of `text_matches_pattern(text, pattern, ic)` (common/utils.c:567-619; see `globB_iff`). -/
def globB (ic : Bool) : Bytes → Bytes → Bool
  | [], t => t.isEmpty
  | c :: p, t =>
    if c = Glob.star then (List.range (t.length + 1)).any fun k => globB ic p (t.drop k)
    else match t with
      | [] => false
      | d :: t' => (decide (Glob.fold ic d = Glob.fold ic c) || c == Glob.quest) && globB ic p t'

/-- A parsed suppression frame (`suppress_frame_t`, drmemory/report.c:357-365). -/
structure SFrame where
  isEllipsis : Bool := false
  isStar : Bool := false
  isModule : Bool := false
  modname : Option Bytes := none
  modoffs : Option Bytes := none
  func : Option Bytes := none
deriving DecidableEq, Repr

/-- A symbolized callstack frame, the fields the matcher uses
(`symbolized_frame_t`, accessed through common/callstack.c:2641-2696). -/
structure Frame where
  isModule : Bool
  modname : Bytes
  modoffs : Bytes
  func : Bytes
deriving DecidableEq, Repr

/-- Build/option parameters of the matcher: FILESYS_CASELESS (common/utils.h:1027), the option
`-replace_malloc`, and the pattern DRMEMORY_LIBNAME (common/utils.h:263-265). -/
structure Cfg where
  caseless : Bool
  replaceMalloc : Bool
  libname : Bytes

/-- `"replace_*"` -/
def replacePat : Bytes := [114, 101, 112, 108, 97, 99, 101, 95, 42]

/-- `frame_matches_modname` (drmemory/report.c:978-987). -/
def modMatch (cfg : Cfg) (f : Frame) (s : SFrame) : Bool :=
  match s.modname with
  | none => false      -- excluded by the ASSERT: only called when is_module and modname are set
  | some m => globB cfg.caseless m f.modname

/-- `top_frame_matches_suppression_frame` for an existing frame (drmemory/report.c:989-1037). -/
def frameMatch (cfg : Cfg) (f : Frame) (s : SFrame) : Bool :=
  if s.isEllipsis then
    if s.isModule then modMatch cfg f s else true
  else if s.isStar then true
  else if !s.isModule then
    !f.isModule && (match s.func with | none => false | some p => globB false p f.func)
  else match s.func with
    | none =>           -- "<mod+offs>"
      f.isModule && (modMatch cfg f s &&
        (match s.modoffs with | none => false | some p => globB true p f.modoffs))
    | some p =>         -- "mod!func"
      f.isModule && (modMatch cfg f s && globB false p f.func)

/-- The frame is a `replace_*` routine of the tool's library (drmemory/report.c:1082-1086). -/
def skipTop (cfg : Cfg) (f : Frame) : Bool :=
  cfg.replaceMalloc && (globB false replacePat f.func && globB cfg.caseless cfg.libname f.modname)

/-- The suppression frame is for a `replace_*` routine and we are wrapping
(drmemory/report.c:1091-1095). -/
def skipSupp (cfg : Cfg) (s : SFrame) : Bool :=
  !cfg.replaceMalloc && (match s.func with
    | none => false
    | some fn => globB false replacePat fn && globB cfg.caseless cfg.libname (s.modname.getD []))

/-- Local variables of `stack_matches_suppression` (drmemory/report.c:1042-1045): `last` is
`(scs_last_ellipsis, cur_ellipsis_supp)`, `none` when `scs_last_ellipsis == -1`. -/
structure St where
  i : Nat
  supp : List SFrame
  last : Option (Nat × SFrame)

/-- One iteration of the `for` loop of `stack_matches_suppression`, including the loop test and the
final return (drmemory/report.c:1057-1107).  The instruction test (1047-1055) is in
`specMatches`. -/
def step (cfg : Cfg) (F : List Frame) (s : St) : St ⊕ Bool :=
  match F[s.i]? with
  | none => .inr s.supp.isEmpty                                        -- line 1107
  | some f =>
    match s.supp with
    | [] => .inr true                                                  -- 1058-1062
    | p :: rest =>
      if frameMatch cfg f p then
        if p.isEllipsis then .inl ⟨s.i, rest, some (s.i, p)⟩           -- 1064-1070
        else .inl ⟨s.i + 1, rest, s.last⟩                              -- 1071-1073
      else
        let other : St ⊕ Bool :=
          if s.i = 0 ∧ skipTop cfg f then .inl ⟨1, p :: rest, s.last⟩   -- 1082-1090
          else if s.i = 0 ∧ skipSupp cfg p then .inl ⟨0, rest, s.last⟩  -- 1091-1102
          else .inr false
        match s.last with
        | some (l, e) =>
          if !e.isModule || modMatch cfg f e then                      -- 1074-1081
            .inl ⟨l + 1, p :: rest, some (l + 1, e)⟩
          else other
        | none => other

/-- `stack_matches_suppression` returns `b` (for a specification without `instruction=`). -/
def Returns (cfg : Cfg) (S : List SFrame) (F : List Frame) (b : Bool) : Prop :=
  Runs (step cfg F) ⟨0, S, none⟩ b

/-- Executable version with a step budget. -/
def run (cfg : Cfg) (S : List SFrame) (F : List Frame) (fuel : Nat) : Option Bool :=
  loop (step cfg F) fuel ⟨0, S, none⟩

/-! ## Specification: which callstacks a suppression describes (docs/reports.dox:76-107) -/

/-- Specification of a module-name pattern: the glob language of C01 on the frame's module name. -/
def ModSpec (cfg : Cfg) (f : Frame) (p : SFrame) : Prop :=
  ∃ m, p.modname = some m ∧ Glob.Matches (Glob.ceq cfg.caseless) m f.modname

/-- Specification of an ordinary suppression line: `*` is any frame; `<mod+offs>` and `mod!func` are
frames in a module whose name, and whose offset (any case) or function (exact case) match; any other
line is a frame outside all modules whose text matches. -/
inductive LineSpec (cfg : Cfg) (f : Frame) (p : SFrame) : Prop
  | star : p.isStar = true → LineSpec cfg f p
  | nonmod (pat : Bytes) : p.isStar = false → p.isModule = false → f.isModule = false →
      p.func = some pat → Glob.Matches (Glob.ceq false) pat f.func → LineSpec cfg f p
  | modFunc (pat : Bytes) : p.isStar = false → p.isModule = true → f.isModule = true →
      ModSpec cfg f p → p.func = some pat → Glob.Matches (Glob.ceq false) pat f.func →
      LineSpec cfg f p
  | modOffs (pat : Bytes) : p.isStar = false → p.isModule = true → f.isModule = true →
      ModSpec cfg f p → p.func = none → p.modoffs = some pat →
      Glob.Matches (Glob.ceq true) pat f.modoffs → LineSpec cfg f p

/-- `Describes cfg S F`: the suppression frames `S` describe a prefix of the callstack `F`.
An ordinary line matches one frame, `...` any number of frames, `module!...` one or more frames of
that module. -/
inductive Describes (cfg : Cfg) : List SFrame → List Frame → Prop
  | nil (F) : Describes cfg [] F
  | frame {p S f F} : p.isEllipsis = false → LineSpec cfg f p → Describes cfg S F →
      Describes cfg (p :: S) (f :: F)
  | plain {p S F} (k : Nat) : p.isEllipsis = true → p.isModule = false → k ≤ F.length →
      Describes cfg S (F.drop k) → Describes cfg (p :: S) F
  | module {p S F} (k : Nat) : p.isEllipsis = true → p.isModule = true → 1 ≤ k → k ≤ F.length →
      (∀ f ∈ F.take k, ModSpec cfg f p) →
      Describes cfg S (F.drop k) → Describes cfg (p :: S) F

/-! ## Suppression lists -/

/-- A loaded suppression, the fields used when matching (drmemory/report.c:367-380). -/
structure Spec where
  frames : List SFrame
  instruction : Option Bytes := none
  countUsed : Nat := 0
  bytesLeaked : Nat := 0

/-- The error callstack record passed to the suppression code (`error_callstack_t`). -/
structure Err where
  stack : List Frame
  instruction : Bytes := []
  bytesLeaked : Nat := 0

/-- The instruction restriction (drmemory/report.c:1047-1055). -/
def instrOk (sp : Spec) (e : Err) : Bool :=
  match sp.instruction with
  | none => true
  | some p => globB false p e.instruction

/-- `on_suppression_list_helper` on one list (drmemory/report.c:1110-1134), with `m sp` the value of
`stack_matches_suppression(ecs, sp)`.  Returns the updated list and the index of the match. -/
def helper (m : Spec → Bool) (isLeak : Bool) (e : Err) :
    List Spec → List Spec × Option Nat
  | [] => ([], none)
  | sp :: rest =>
    if m sp then
      ({ sp with countUsed := sp.countUsed + 1,
                 bytesLeaked := if isLeak then sp.bytesLeaked + e.bytesLeaked else sp.bytesLeaked }
        :: rest, some 0)
    else
      let r := helper m isLeak e rest
      (sp :: r.1, r.2.map (· + 1))

/-- Error types (drmemory/report.c:92-106, non-Windows numbering): ERROR_LEAK = 4,
ERROR_POSSIBLE_LEAK = 5, ERROR_REACHABLE_LEAK = 6. -/
def errLeak : Nat := 4
def maxLeak : Nat := 6
/-- `type_is_leak` (drmemory/report.c:109-113). -/
def typeIsLeak (t : Nat) : Bool := errLeak ≤ t && t ≤ maxLeak

/-- `on_suppression_list` (drmemory/report.c:1136-1150).  `lists t` is `supp_list[t]`.
Returns the updated lists and the matched (type, index). -/
def onList (m : Spec → Bool) (e : Err) (t : Nat) (lists : Nat → List Spec) :
    (Nat → List Spec) × Option (Nat × Nat) :=
  let r := helper m (typeIsLeak t) e (lists t)
  match r.2 with
  | some k => ((fun u => if u = t then r.1 else lists u), some (t, k))
  | none =>
    if typeIsLeak t && t != errLeak then
      let r' := helper m true e (lists errLeak)
      match r'.2 with
      | some k => ((fun u => if u = errLeak then r'.1 else lists u), some (errLeak, k))
      | none => (lists, none)
    else (lists, none)

end Verif.Suppress
