/-
Model of what the system call tracer prints about an argument (Windows): drstrace/drstrace.c:98-509, and
the values it is given, drsyscall/drsyscall.c:1744-1804.

Simplifications, valid for the whole file:
* printed text is a list of tokens; how numbers are formatted is left out;
* structures are those of 64-bit Windows; types come from debug information (`drsym_get_type_by_name`,
  `drsym_expand_type`), here a parameter; type names are reduced to the four the tracer knows;
* the hash table of named constants is a parameter (`none`: no such group); its groups are lists;
* the application's memory is a function from addresses to bytes, `none` where it cannot be read.
-/

namespace Verif.Strace

/-- The application's memory. -/
abbrev Mem := Nat → Option Nat

/-- `dr_safe_read` of `n` bytes, little-endian. -/
def rd (m : Mem) (a : Nat) : Nat → Option Nat
  | 0 => some 0
  | n + 1 =>
    match rd m a n, m (a + n) with
    | some v, some b => some (v + b * 256 ^ n)
    | _, _ => none

/-- The structures the tracer knows (drstrace/drstrace.c:259-266), and all others. -/
inductive Kind where
  | largeInteger | unicodeString | objectAttributes | ioStatusBlock | other
deriving DecidableEq, Repr

/-- What is printed: fixed text, a number, names, the marks of the tracer. -/
inductive Tok where
  | txt (s : String)
  | num (v : Nat)
  | unreadable
  | null
  | nyi
  | wstr (l : List Nat)
deriving DecidableEq, Repr

/-- What comes of printing: text; the tracer's `ASSERT` (drstrace/drstrace.c:81-86), which ends the
application in release builds too; a fault in the tracer. -/
inductive Out where
  | ok (l : List Tok)
  | abort
  | fault
deriving DecidableEq, Repr

/-- One after the other. -/
def Out.seq : Out → Out → Out
  | .ok l, .ok l' => .ok (l ++ l')
  | .ok _, o => o
  | o, _ => o

/-- drstrace/drstrace.c:190-204 `safe_read_field`. -/
def field (m : Mem) (a n : Nat) : Out :=
  if 8 < n then .abort
  else
    match rd m a n with
    | none => .ok [.unreadable]
    | some v => .ok [.num v]

/-- Reads without protection: the numbers at these offsets with these sizes, or a fault. -/
def direct (m : Mem) (a : Nat) : List (Nat × Nat) → Option (List Nat)
  | [] => some []
  | (o, n) :: l =>
    match rd m (a + o) n, direct m a l with
    | some v, some vs => some (v :: vs)
    | _, _ => none

/-- The characters printed by `%.*S`: at most `n`, up to a zero; a fault if one cannot be read. -/
def wide (m : Mem) (a : Nat) : Nat → Option (List Nat)
  | 0 => some []
  | n + 1 =>
    match rd m a 2 with
    | none => none
    | some 0 => some []
    | some c => (wide m (a + 2) n).map (c :: ·)

/-- drstrace/drstrace.c:98-108 `print_unicode_string`: two lengths and the text. -/
def unicode (m : Mem) (a : Nat) : Out :=
  if a = 0 then .ok [.null]
  else
    match direct m a [(0, 2), (2, 2), (8, 8)] with
    | some [l, x, b] =>
      if b = 0 then .ok [.num l, .num x, .null]
      else
        match wide m b (l / 2) with
        | some w => .ok [.num l, .num x, .wstr w]
        | none => .fault
    | _ => .fault

/-- drstrace/drstrace.c:206-244 `print_known_compound_type`; `none` for other types. -/
def known (m : Mem) (k : Kind) (a : Nat) : Option Out :=
  match k with
  | .unicodeString => some (unicode m a)
  | .objectAttributes =>
    match direct m a [(0, 4), (8, 8), (16, 8), (24, 4), (32, 8), (40, 8)] with
    | some [l, r, n, at_, sd, sq] =>
      some (.seq (.seq (.ok [.num l, .num r]) (unicode m n)) (.ok [.num at_, .num sd, .num sq]))
    | _ => some .fault
  | .ioStatusBlock =>
    match direct m a [(0, 4), (8, 8)] with
    | some [s, i] => some (.ok [.num s, .num i])
    | _ => some .fault
  | .largeInteger =>
    match direct m a [(0, 8)] with
    | some [v] => some (.ok [.num v])
    | _ => some .fault
  | .other => none

mutual
/-- A type from debug information, with its size: void, pointer, array, integer, structure or union. -/
inductive Ty where
  | void (n : Nat)
  | ptr (n : Nat) (e : Ty)
  | arr (n : Nat)
  | int (n : Nat)
  | comp (k : Kind) (n : Nat) (fs : Tys)
/-- The fields. -/
inductive Tys where
  | nil
  | cons (t : Ty) (ts : Tys)
end

/-- `type->size`. -/
def Ty.size : Ty → Nat
  | .void n => n
  | .ptr n _ => n
  | .arr n => n
  | .int n => n
  | .comp _ n _ => n

/-- drstrace/drstrace.c:273-281 `get_total_size_of_fields`. -/
def Tys.total : Tys → Nat
  | .nil => 0
  | .cons t ts => t.size + ts.total

/-- One byte of an array (drstrace/drstrace.c:326-333). -/
def arrByte (m : Mem) (a : Nat) : Tok :=
  match rd m a 1 with
  | none => .unreadable
  | some v => .num v

/-- The bytes of an array that are printed (drstrace/drstrace.c:326-333): the first, and up to the
fourth. -/
def arrBytes (m : Mem) (a n : Nat) : List Tok :=
  ((List.range (max 1 (min n 4))).map fun i => arrByte m (a + i)) ++ (if 4 < n then [.txt "..."] else [])

mutual
/-- drstrace/drstrace.c:283-360 `print_structure`. -/
def printTy (m : Mem) : Ty → Nat → Out
  | .void n, a => .seq (.ok [.txt "void="]) (field m a n)
  | .ptr n e, a =>
    if 8 < n then .abort
    else
      match rd m a n with
      | none => .seq (.seq (.ok [.unreadable]) (printTy m e 0)) (.ok [.txt "*"])
      | some v => .seq (printTy m e v) (.ok [.txt "*"])
  | .arr n, a => .ok ([.txt "array={"] ++ arrBytes m a n ++ [.txt "}"])
  | .int n, a => .seq (.ok [.txt "int="]) (field m a n)
  | .comp k n fs, a =>
    match known m k a with
    | some o => .seq (.seq (.ok [.txt "{"]) o) (.ok [.txt "}"])
    | none => .seq (.seq (.ok [.txt "{"]) (printTys m fs a (decide (n < fs.total)))) (.ok [.txt "}"])
/-- The loop over the fields (drstrace/drstrace.c:301-308): each at the sum of the sizes before it, or
all at the same address if the structure is taken for a union. -/
def printTys (m : Mem) : Tys → Nat → Bool → Out
  | .nil, _, _ => .ok []
  | .cons t ts, a, u => .seq (printTy m t a) (printTys m ts (if u then a else a + t.size) u)
end

mutual
/-- drstrace/drstrace.c:362-383 `type_has_unknown_components`, which is true if all are known. -/
def allKnown : Ty → Bool
  | .comp _ _ fs => allKnowns fs
  | t => decide (t.size ≠ 0)
/-- Its loop (drstrace/drstrace.c:369-378). -/
def allKnowns : Tys → Bool
  | .nil => true
  | .cons t ts =>
    (match t with
     | .ptr _ e => decide (e.size ≠ 0)
     | _ => true) && allKnown t && allKnowns ts
end

/-! ## Named constants -/

/-- A constant as compared with an argument: `int` (drstrace/drstrace_named_consts.h:29-32), extended
with its sign to the width `w` of a pointer. -/
def cval (w v : Nat) : Nat := if w = 64 ∧ 2 ^ 31 ≤ v then v + (2 ^ 64 - 2 ^ 32) else v

/-- Names with something between them. -/
def sepBy (s : String) : List String → List Tok
  | [] => []
  | [x] => [.txt x]
  | x :: y :: l => .txt x :: .txt s :: sepBy s (y :: l)

/-- drstrace/drstrace.c:125-188 `drstrace_print_enum_const_name`: what is printed, and whether a name
was found. -/
def enumName (w : Nat) (tab : Option (List (Nat × String))) (v : Nat) : List Tok × Bool :=
  match tab with
  | none => ([.num v], false)
  | some cs =>
    let eq := cs.filter fun c => v == cval w c.1
    if eq ≠ [] then (sepBy " or " (eq.map (·.2)), true)
    else
      let sub := cs.filter fun c => (cval w c.1 &&& v) == cval w c.1
      if sub ≠ [] then (sepBy "|" (sub.map (·.2)), true) else ([.num v], false)

/-! ## Arguments -/

/-- The types of arguments, as far as they are told apart (drstrace/drstrace.c:431, 468-487): numbers
and pointers printed as such; other types before `DRSYS_TYPE_STRUCT`; structures. -/
inductive PType where
  | simple
  | otherInline
  | struct (k : Kind)
deriving DecidableEq, Repr

/-- An argument (`drsys_arg_t`).  `names` is the group of constants if `enum_name` is given and the type
is no structure; `expand` the type found for `enum_name` if it is one. -/
structure Arg where
  value : Nat
  size : Nat
  pre : Bool
  inp : Bool
  out : Bool
  inlined : Bool
  retval : Bool
  type : PType
  enum : Bool
  names : Option (List (Nat × String))
  expand : Option Ty

/-- The value of an inlined parameter (drsyscall/drsyscall.c:1773-1788): the upper bits are cleared. -/
def argValue (raw size : Nat) : Nat :=
  if size = 1 then raw % 2 ^ 8 else if size = 2 then raw % 2 ^ 16
  else if size = 4 then raw % 2 ^ 32 else raw

/-- drstrace/drstrace.c:110-123 `print_simple_value`. -/
def simple (m : Mem) (g : Arg) : Out :=
  if !g.inlined && ((g.pre && g.inp) || (!g.pre && g.out)) then
    if 8 < g.size then .abort
    else
      match rd m g.value g.size with
      | some v => .ok [.num g.value, .txt " => ", .num v]
      | none => .ok [.num g.value]
  else .ok [.num g.value]

/-- The switch in `print_arg` (drstrace/drstrace.c:468-488). -/
def byType (m : Mem) (g : Arg) : Out :=
  match g.type with
  | .simple => simple m g
  | t =>
    if g.value = 0 then .ok [.null]
    else if g.pre && !g.inp then .ok [.num g.value]
    else
      match t with
      | .struct k => (known m k g.value).getD (.ok [.nyi])
      | _ => .ok [.nyi]

/-- drstrace/drstrace.c:385-426 `drstrace_print_info_class_struct`; `none` where it returns false. -/
def infoClass (m : Mem) (g : Arg) : Option Out :=
  match g.expand with
  | none => none
  | some t =>
    if allKnown t = false then none
    else if g.pre then none
    else if g.value = 0 then some (.ok [.txt "NULL"])
    else some (printTy m t g.value)

/-- drstrace/drstrace.c:428-451 `drstrace_get_arg_symname`; `none` where it returns false.  After a name
the value is printed too (:441), and else it was. -/
def symname (m : Mem) (w : Nat) (g : Arg) : Option Out :=
  match g.type with
  | .struct _ => infoClass m g
  | _ =>
    let r := enumName w g.names g.value
    some (.ok (if r.2 then r.1 ++ [.txt "value=", .num g.value] else r.1))

/-- drstrace/drstrace.c:453-498 `print_arg`; `w` is the width of a pointer. -/
def printArg (m : Mem) (w : Nat) (g : Arg) : Out :=
  if g.enum then (symname m w g).getD (byType m g) else byType m g

/-- drstrace/drstrace.c:500-509 `drsys_iter_arg_cb`. -/
def argCb (m : Mem) (w : Nat) (g : Arg) : Out :=
  if (g.pre && !g.retval) || (!g.pre && (g.out || g.retval)) then printArg m w g else .ok []

end Verif.Strace
