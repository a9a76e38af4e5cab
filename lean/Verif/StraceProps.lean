import Verif.Strace
/-!
# C80: what the system call tracer prints about arguments

Property theorems.  The specification: fields of a structure lie where C puts them (`Spec.values`), a
constant names an argument if their 32 bits agree, memory that cannot be read is no reason to stop.
-/
namespace Verif.Strace

namespace Spec

mutual
/-- The alignment of a type in C, for integers and structures of them. -/
def align : Ty → Nat
  | .void _ => 1
  | .ptr n _ => n
  | .arr _ => 1
  | .int n => n
  | .comp _ _ fs => aligns fs
/-- The largest alignment. -/
def aligns : Tys → Nat
  | .nil => 1
  | .cons t ts => max (align t) (aligns ts)
end

/-- The next multiple. -/
def roundUp (n al : Nat) : Nat := (n + (al - 1)) / al * al

mutual
/-- The values of the integers of a structure at `a`, each where C puts it; `none` if it cannot be
read. -/
def values (m : Mem) : Ty → Nat → List (Option Nat)
  | .int n, a => [rd m a n]
  | .comp _ _ fs, a => valuess m fs a 0
  | _, _ => []
/-- The values of the fields from the offset `o` on. -/
def valuess (m : Mem) : Tys → Nat → Nat → List (Option Nat)
  | .nil, _, _ => []
  | .cons t ts, a, o =>
    values m t (a + roundUp o (align t)) ++ valuess m ts a (roundUp o (align t) + t.size)
end

mutual
/-- Integers of at most eight bytes and structures of them, without padding before a field; none of the
structures the tracer knows. -/
def Packed : Ty → Prop
  | .int n => 0 < n ∧ n ≤ 8
  | .comp k n fs => k = .other ∧ fs.total ≤ n ∧ Packeds fs 0
  | _ => False
/-- The fields from the offset `o` on. -/
def Packeds : Tys → Nat → Prop
  | .nil, _ => True
  | .cons t ts, o => o % align t = 0 ∧ 0 < align t ∧ Packed t ∧ Packeds ts (o + t.size)
end

mutual
/-- None of the structures the tracer knows. -/
def Plain : Ty → Prop
  | .ptr _ e => Plain e
  | .comp k _ fs => k = .other ∧ Plains fs
  | _ => True
/-- The same for fields. -/
def Plains : Tys → Prop
  | .nil => True
  | .cons t ts => Plain t ∧ Plains ts
end

mutual
/-- No integer or pointer of more than eight bytes. -/
def Small : Ty → Prop
  | .void n => n ≤ 8
  | .ptr n e => n ≤ 8 ∧ Small e
  | .arr _ => True
  | .int n => n ≤ 8
  | .comp _ _ fs => Smalls fs
/-- The same for fields. -/
def Smalls : Tys → Prop
  | .nil => True
  | .cons t ts => Small t ∧ Smalls ts
end

/-- The numbers in a text, `none` for one that could not be read. -/
def numbers : List Tok → List (Option Nat)
  | [] => []
  | .num v :: l => some v :: numbers l
  | .unreadable :: l => none :: numbers l
  | _ :: l => numbers l

/-- The names in a text joined by `s`. -/
def joined (s : String) : List String → List Tok
  | [] => []
  | [x] => [.txt x]
  | x :: l => .txt x :: .txt s :: joined s l

end Spec
open Spec

theorem numbers_append (l l' : List Tok) : numbers (l ++ l') = numbers l ++ numbers l' := by
  induction l with
  | nil => rfl
  | cons t l ih =>
    cases t <;> simp only [List.cons_append, numbers, ih]

theorem roundUp_of {n al : Nat} (h : n % al = 0) (h0 : 0 < al) : roundUp n al = n := by
  unfold roundUp
  obtain ⟨k, rfl⟩ := Nat.dvd_of_mod_eq_zero h
  rw [Nat.mul_comm al k, Nat.add_comm, Nat.add_mul_div_right _ _ h0,
    Nat.div_eq_of_lt (by omega), Nat.zero_add]

mutual
theorem printTy_packed (m : Mem) : ∀ (t : Ty) (a : Nat), Packed t →
    ∃ l, printTy m t a = .ok l ∧ numbers l = values m t a
  | .int n, a, h => by
    rw [printTy, field, if_neg (by have := h.2; omega), values]
    cases rd m a n with
    | none => exact ⟨_, rfl, rfl⟩
    | some v => exact ⟨_, rfl, rfl⟩
  | .comp k n fs, a, h => by
    obtain ⟨rfl, h1, h2⟩ : k = .other ∧ fs.total ≤ n ∧ Packeds fs 0 := by
      rw [Packed] at h; exact h
    obtain ⟨l, e1, e2⟩ := printTys_packed m fs a 0 h2
    rw [Nat.add_zero] at e1
    rw [printTy, known]
    dsimp only
    rw [show decide (n < fs.total) = false by rw [decide_eq_false_iff_not]; omega, e1, values]
    refine ⟨_, rfl, ?_⟩
    rw [numbers_append, numbers_append, e2]
    simp [numbers]
  | .void _, _, h => by simp [Packed] at h
  | .ptr _ _, _, h => by simp [Packed] at h
  | .arr _, _, h => by simp [Packed] at h
theorem printTys_packed (m : Mem) : ∀ (ts : Tys) (a o : Nat), Packeds ts o →
    ∃ l, printTys m ts (a + o) false = .ok l ∧ numbers l = valuess m ts a o
  | .nil, a, o, _ => ⟨[], by rw [printTys], by rw [valuess]; rfl⟩
  | .cons t ts, a, o, h => by
    rw [Packeds] at h
    obtain ⟨h1, h2, h3, h4⟩ := h
    obtain ⟨l1, e1, e2⟩ := printTy_packed m t (a + o) h3
    obtain ⟨l2, e3, e4⟩ := printTys_packed m ts a (o + t.size) h4
    rw [printTys, e1, if_neg (by simp), Nat.add_assoc, e3, valuess, roundUp_of h1 h2]
    exact ⟨_, rfl, by rw [numbers_append, e2, e4]⟩
end

/-- C80: for a structure of integers and structures without padding, the numbers printed are the
values of its integers, in order, each where C puts it.  Missing: padding (`C80_padding`), bit fields
(`C80_overlaid`). -/
theorem C80_struct_partial (m : Mem) (t : Ty) (a : Nat) (h : Packed t) :
    ∃ l, printTy m t a = .ok l ∧ numbers l = values m t a := printTy_packed m t a h

/-- Two integers of four bytes, then a structure of two of eight. -/
example : Packed (.comp .other 24 (.cons (.int 4) (.cons (.int 4)
    (.cons (.comp .other 16 (.cons (.int 8) (.cons (.int 8) .nil))) .nil)))) := by
  simp [Packed, Packeds, Tys.total, Ty.size, align, aligns]

/-- C80, against the code: the second of two integers is read directly behind the first, not where its
alignment puts it. -/
theorem C80_padding (m : Mem) {s1 s2 n a : Nat} (h1 : s1 ≤ 8) (h2 : s2 ≤ 8) (hn : s1 + s2 ≤ n) :
    ∃ l, printTy m (.comp .other n (.cons (.int s1) (.cons (.int s2) .nil))) a = .ok l ∧
      numbers l = [rd m a s1, rd m (a + s1) s2] := by
  have ht : (Tys.cons (.int s1) (.cons (.int s2) .nil)).total = s1 + s2 := by
    simp [Tys.total, Ty.size]
  rw [printTy, known]
  dsimp only
  rw [ht, show decide (n < s1 + s2) = false by rw [decide_eq_false_iff_not]; omega]
  simp only [printTy, Ty.size, printTys, field]
  rw [if_neg (by omega), if_neg (by omega)]
  simp only [Bool.false_eq_true, if_false]
  cases rd m a s1 <;> cases rd m (a + s1) s2 <;> exact ⟨_, rfl, rfl⟩

/-- A byte and an integer of four bytes: C puts the second at 4, the tracer reads it at 1. -/
example : values (fun a => some a) (.comp .other 8 (.cons (.int 1) (.cons (.int 4) .nil))) 0 =
    [rd (fun a => some a) 0 1, rd (fun a => some a) 4 4] ∧
    rd (fun a => some a) 4 4 ≠ rd (fun a => some a) 1 4 := by
  constructor
  · simp [values, valuess, roundUp, align, Ty.size]
  · decide

/-- C80, against the code: fields that together exceed the size of their structure, as bit fields do,
are all read at its start. -/
theorem C80_overlaid (m : Mem) {s1 s2 n a : Nat} (h1 : s1 ≤ 8) (h2 : s2 ≤ 8) (hn : n < s1 + s2) :
    ∃ l, printTy m (.comp .other n (.cons (.int s1) (.cons (.int s2) .nil))) a = .ok l ∧
      numbers l = [rd m a s1, rd m a s2] := by
  have ht : (Tys.cons (.int s1) (.cons (.int s2) .nil)).total = s1 + s2 := by
    simp [Tys.total, Ty.size]
  rw [printTy, known]
  dsimp only
  rw [ht, show decide (n < s1 + s2) = true by rw [decide_eq_true_iff]; omega]
  simp only [printTy, Ty.size, printTys, field]
  rw [if_neg (by omega), if_neg (by omega)]
  simp only [if_true]
  cases rd m a s1 <;> cases rd m a s2 <;> exact ⟨_, rfl, rfl⟩

/-- C80: a union, all of whose members are larger together than it, has each member read at its
start. -/
theorem C80_union (m : Mem) (n : Nat) (fs : Tys) (a : Nat) (h : n < fs.total) :
    printTy m (.comp .other n fs) a =
      .seq (.seq (.ok [.txt "{"]) (printTys m fs a true)) (.ok [.txt "}"]) := by
  rw [printTy, known]
  dsimp only
  rw [show decide (n < fs.total) = true by rw [decide_eq_true_iff]; exact h]

/-- C80: for a pointer that can be read, what it leads to is printed. -/
theorem C80_pointer {m : Mem} {n a v : Nat} {e : Ty} {l : List Tok} (h8 : n ≤ 8)
    (hv : rd m a n = some v) (he : printTy m e v = .ok l) :
    printTy m (.ptr n e) a = .ok (l ++ [.txt "*"]) := by
  rw [printTy, if_neg (by omega), hv]
  dsimp only
  rw [he]
  rfl

/-- C80: of an array the first four bytes are printed, and whether there are more. -/
theorem C80_array (m : Mem) {n : Nat} (hn : 0 < n) (a : Nat) :
    ∃ l, printTy m (.arr n) a = .ok l ∧
      numbers l = (List.range (min n 4)).map (fun i => rd m (a + i) 1) ∧
      (Tok.txt "..." ∈ l ↔ 4 < n) := by
  rw [printTy]
  refine ⟨_, rfl, ?_, ?_⟩
  · unfold arrBytes
    rw [numbers_append, numbers_append, numbers_append, show max 1 (min n 4) = min n 4 by omega]
    have h1 : ∀ l : List Nat, numbers (l.map fun i => arrByte m (a + i)) = l.map fun i => rd m (a + i) 1 := by
      intro l
      induction l with
      | nil => rfl
      | cons i l ih =>
        rw [List.map_cons, List.map_cons, arrByte]
        cases rd m (a + i) 1 with
        | none => simp only [numbers, ih]
        | some v => simp only [numbers, ih]
    rw [h1]
    split <;> simp [numbers]
  · unfold arrBytes
    simp only [List.mem_append, List.mem_map, List.mem_cons]
    constructor
    · rintro ((h | ⟨i, _, h⟩ | h) | h)
      · exact absurd h (by decide)
      · unfold arrByte at h
        split at h <;> cases h
      · by_cases g : 4 < n
        · exact g
        · rw [if_neg g] at h; cases h
      · exact absurd h (by decide)
    · intro g
      rw [if_pos g]
      exact .inl (.inr (.inr (List.mem_singleton.2 rfl)))

/-! ## Robustness -/

theorem seq_fault {a b : Out} (ha : a ≠ .fault) (hb : b ≠ .fault) : a.seq b ≠ .fault := by
  cases a <;> cases b <;> simp_all [Out.seq]

theorem seq_abort {a b : Out} (ha : a ≠ .abort) (hb : b ≠ .abort) : a.seq b ≠ .abort := by
  cases a <;> cases b <;> simp_all [Out.seq]

theorem field_fault (m : Mem) (a n : Nat) : field m a n ≠ .fault := by
  unfold field
  split
  · simp
  · split <;> simp

theorem field_abort (m : Mem) {a n : Nat} (h : n ≤ 8) : field m a n ≠ .abort := by
  unfold field
  rw [if_neg (by omega)]
  split <;> simp

mutual
theorem printTy_fault (m : Mem) : ∀ (t : Ty) (a : Nat), Plain t → printTy m t a ≠ .fault
  | .void n, a, _ => by rw [printTy]; exact seq_fault (by simp) (field_fault m a n)
  | .int n, a, _ => by rw [printTy]; exact seq_fault (by simp) (field_fault m a n)
  | .arr n, a, _ => by rw [printTy]; simp
  | .ptr n e, a, h => by
    have he : Plain e := by rw [Plain] at h; exact h
    rw [printTy]
    split
    · simp
    · split
      · exact seq_fault (seq_fault (by simp) (printTy_fault m e 0 he)) (by simp)
      · exact seq_fault (printTy_fault m e _ he) (by simp)
  | .comp k n fs, a, h => by
    obtain ⟨rfl, h1⟩ : k = .other ∧ Plains fs := by rw [Plain] at h; exact h
    rw [printTy, known]
    exact seq_fault (seq_fault (by simp) (printTys_fault m fs a _ h1)) (by simp)
theorem printTys_fault (m : Mem) : ∀ (ts : Tys) (a : Nat) (u : Bool), Plains ts →
    printTys m ts a u ≠ .fault
  | .nil, a, u, _ => by rw [printTys]; simp
  | .cons t ts, a, u, h => by
    rw [Plains] at h
    rw [printTys]
    exact seq_fault (printTy_fault m t a h.1) (printTys_fault m ts _ u h.2)
end

/-- C80: whatever memory can be read, printing a structure that contains none of the four the tracer
knows does not fault.  Missing: those four (`C80_known_fault`). -/
theorem C80_no_fault_partial (m : Mem) (t : Ty) (a : Nat) (h : Plain t) : printTy m t a ≠ .fault :=
  printTy_fault m t a h

theorem known_abort (m : Mem) (k : Kind) (a : Nat) : known m k a ≠ some .abort := by
  have hu : ∀ a, unicode m a ≠ .abort := by
    intro a
    unfold unicode
    split
    · simp
    · split
      · split
        · simp
        · split <;> simp
      · simp
  cases k <;> unfold known
  · dsimp only; split <;> simp
  · simpa using hu a
  · dsimp only
    split
    · intro h
      rw [Option.some.injEq] at h
      exact seq_abort (seq_abort (by simp) (hu _)) (by simp) h
    · simp
  · dsimp only; split <;> simp
  · simp

mutual
theorem printTy_abort (m : Mem) : ∀ (t : Ty) (a : Nat), Small t → printTy m t a ≠ .abort
  | .void n, a, h => by
    rw [Small] at h; rw [printTy]; exact seq_abort (by simp) (field_abort m h)
  | .int n, a, h => by
    rw [Small] at h; rw [printTy]; exact seq_abort (by simp) (field_abort m h)
  | .arr n, a, _ => by rw [printTy]; simp
  | .ptr n e, a, h => by
    rw [Small] at h
    rw [printTy, if_neg (by omega)]
    split
    · exact seq_abort (seq_abort (by simp) (printTy_abort m e 0 h.2)) (by simp)
    · exact seq_abort (printTy_abort m e _ h.2) (by simp)
  | .comp k n fs, a, h => by
    rw [Small] at h
    rw [printTy]
    split
    · rename_i o ho
      exact seq_abort (seq_abort (by simp) (fun q => known_abort m k a (by rw [ho, q]))) (by simp)
    · exact seq_abort (seq_abort (by simp) (printTys_abort m fs a _ h)) (by simp)
theorem printTys_abort (m : Mem) : ∀ (ts : Tys) (a : Nat) (u : Bool), Smalls ts →
    printTys m ts a u ≠ .abort
  | .nil, a, u, _ => by rw [printTys]; simp
  | .cons t ts, a, u, h => by
    rw [Smalls] at h
    rw [printTys]
    exact seq_abort (printTy_abort m t a h.1) (printTys_abort m ts _ u h.2)
end

/-- C80: the application is not ended while printing a structure of integers and pointers of at most
eight bytes.  Missing: larger ones (`C80_too_big`). -/
theorem C80_no_abort_partial (m : Mem) (t : Ty) (a : Nat) (h : Small t) : printTy m t a ≠ .abort :=
  printTy_abort m t a h

/-- A list entry: a number and a pointer to another number. -/
example : Plain (.comp .other 16 (.cons (.int 8) (.cons (.ptr 8 (.int 4)) .nil))) ∧
    Small (.comp .other 16 (.cons (.int 8) (.cons (.ptr 8 (.int 4)) .nil))) := by
  simp [Plain, Plains, Small, Smalls]

/-- C80, against the code: an integer of more than eight bytes (a 16-byte vector, say) ends the
application. -/
theorem C80_too_big (m : Mem) {n a : Nat} (h : 8 < n) : printTy m (.int n) a = .abort := by
  rw [printTy, field, if_pos h]
  rfl

/-- C80, against the code: the structures the tracer knows are read without protection.  A pointer to
one that cannot be read, for which the kernel would return an error, makes the tracer fault, before the
call for an input, after it for an output. -/
theorem C80_known_fault {m : Mem} {w : Nat} {g : Arg} {k : Kind} (hk : k ≠ .other)
    (ht : g.type = .struct k) (he : g.enum = false) (hr : g.retval = false)
    (hd : (g.pre = true ∧ g.inp = true) ∨ (g.pre = false ∧ g.out = true)) (h0 : g.value ≠ 0)
    (hm : m g.value = none) : argCb m w g = .fault := by
  have hrd : ∀ n, 0 < n → rd m g.value n = none := by
    intro n hn
    induction n with
    | zero => omega
    | succ n ih =>
      rw [rd]
      by_cases h : n = 0
      · subst h
        rw [Nat.add_zero, hm]
        cases rd m g.value 0 <;> rfl
      · rw [ih (by omega)]
  have hdir : ∀ n l, 0 < n → direct m g.value ((0, n) :: l) = none := by
    intro n l hn
    rw [direct, Nat.add_zero, hrd n hn]
  have hkn : known m k g.value = some .fault := by
    cases k with
    | other => exact absurd rfl hk
    | largeInteger => unfold known; dsimp only; rw [hdir 8 _ (by omega)]
    | ioStatusBlock => unfold known; dsimp only; rw [hdir 4 _ (by omega)]
    | objectAttributes => unfold known; dsimp only; rw [hdir 4 _ (by omega)]
    | unicodeString =>
      unfold known unicode
      dsimp only
      rw [if_neg h0, hdir 2 _ (by omega)]
  have hb : byType m g = .fault := by
    unfold byType
    rw [ht]
    dsimp only
    rw [if_neg h0, if_neg, hkn]
    · rfl
    · rcases hd with hd | hd <;> simp [hd.1, hd.2]
  unfold argCb printArg
  rw [if_pos, he, if_neg (by simp), hb]
  rcases hd with hd | hd <;> simp [hd.1, hd.2, hr]

/-- C80, against the code: a pointer field that cannot be read is followed as a null pointer, and a
structure of object attributes behind it makes the tracer fault. -/
theorem C80_null_fault {m : Mem} {a n s : Nat} {fs : Tys} (h8 : n ≤ 8) (hr : rd m a n = none)
    (h0 : m 0 = none) : printTy m (.ptr n (.comp .objectAttributes s fs)) a = .fault := by
  have : rd m 0 4 = none := by
    simp only [rd, Nat.add_zero, h0]
  rw [printTy, if_neg (by omega), hr]
  dsimp only
  rw [printTy]
  unfold known
  dsimp only
  rw [direct, Nat.add_zero, this]
  rfl

/-! ## The structures the tracer knows -/

/-- The text behind a pointer: the characters before the first zero, at most `n`. -/
def Spec.IsText (m : Mem) (a n : Nat) (l : List Nat) : Prop :=
  l.length ≤ n ∧ (∀ i c, l[i]? = some c → c ≠ 0 ∧ rd m (a + 2 * i) 2 = some c) ∧
    (l.length < n → rd m (a + 2 * l.length) 2 = some 0)

theorem wide_text (m : Mem) : ∀ (n a : Nat) (l : List Nat), wide m a n = some l → Spec.IsText m a n l
  | 0, a, l, h => by
    rw [wide, Option.some.injEq] at h
    subst h
    exact ⟨Nat.le_refl _, fun i c hc => by simp at hc, fun hl => absurd hl (by simp)⟩
  | n + 1, a, l, h => by
    rw [wide] at h
    split at h
    · cases h
    · rename_i h0
      rw [Option.some.injEq] at h
      subst h
      exact ⟨Nat.zero_le _, fun i c hc => by simp at hc, fun _ => by simpa using h0⟩
    · rename_i c hc h1
      obtain ⟨l', h2, rfl⟩ := Option.map_eq_some_iff.1 h
      obtain ⟨i1, i2, i3⟩ := wide_text m n (a + 2) l' h2
      refine ⟨by simpa using i1, ?_, ?_⟩
      · intro i d hd
        cases i with
        | zero =>
          rw [List.getElem?_cons_zero, Option.some.injEq] at hd
          subst hd
          exact ⟨fun q => hc q, by simpa using h1⟩
        | succ i =>
          rw [List.getElem?_cons_succ] at hd
          have := i2 i d hd
          rw [show a + 2 * (i + 1) = a + 2 + 2 * i by omega]
          exact this
      · intro hl
        rw [List.length_cons] at hl ⊢
        rw [show a + 2 * (l'.length + 1) = a + 2 + 2 * l'.length by omega]
        exact i3 (by omega)

/-- C80: a string is printed with its two lengths and its text, not beyond its length. -/
theorem C80_string {m : Mem} {a : Nat} {t : List Tok} (h0 : a ≠ 0) (h : unicode m a = .ok t) :
    ∃ l x b, valuess m (.cons (.int 2) (.cons (.int 2) (.cons (.int 8) .nil))) a 0 =
        [some l, some x, some b] ∧
      ((b = 0 ∧ t = [.num l, .num x, .null]) ∨
        ∃ w, Spec.IsText m b (l / 2) w ∧ t = [.num l, .num x, .wstr w]) := by
  have hv : valuess m (.cons (.int 2) (.cons (.int 2) (.cons (.int 8) .nil))) a 0 =
      [rd m a 2, rd m (a + 2) 2, rd m (a + 8) 8] := by
    simp [valuess, values, roundUp, align, Ty.size]
  rw [hv]
  unfold unicode at h
  rw [if_neg h0] at h
  simp only [direct, Nat.add_zero] at h
  cases h1 : rd m a 2 with
  | none => rw [h1] at h; cases h
  | some l =>
    cases h2 : rd m (a + 2) 2 with
    | none => rw [h1, h2] at h; cases h
    | some x =>
      cases h3 : rd m (a + 8) 8 with
      | none => rw [h1, h2, h3] at h; cases h
      | some b =>
        rw [h1, h2, h3] at h
        dsimp only at h
        refine ⟨l, x, b, rfl, ?_⟩
        by_cases hb : b = 0
        · rw [if_pos hb] at h
          cases h
          exact .inl ⟨hb, rfl⟩
        · rw [if_neg hb] at h
          cases h4 : wide m b (l / 2) with
          | none => rw [h4] at h; cases h
          | some w =>
            rw [h4] at h
            cases h
            exact .inr ⟨w, wide_text m _ _ _ h4, rfl⟩

/-- C80: the other structures the tracer knows are printed with the values where C puts them; the name
among the object attributes is the string its pointer leads to. -/
theorem C80_known_values {m : Mem} {a : Nat} {t : List Tok} :
    (known m .largeInteger a = some (.ok t) → ∃ v, rd m a 8 = some v ∧ t = [.num v]) ∧
    (known m .ioStatusBlock a = some (.ok t) → ∃ s i,
      valuess m (.cons (.int 4) (.cons (.int 8) .nil)) a 0 = [some s, some i] ∧
      t = [.num s, .num i]) ∧
    (known m .objectAttributes a = some (.ok t) → ∃ l r n u at_ sd sq,
      valuess m (.cons (.int 4) (.cons (.int 8) (.cons (.int 8) (.cons (.int 4) (.cons (.int 8)
        (.cons (.int 8) .nil)))))) a 0 =
        [some l, some r, some n, some at_, some sd, some sq] ∧
      unicode m n = .ok u ∧
      t = [.num l, .num r] ++ u ++ [.num at_, .num sd, .num sq]) := by
  refine ⟨?_, ?_, ?_⟩
  · intro h
    simp only [known, direct, Nat.add_zero] at h
    cases h1 : rd m a 8 with
    | none => rw [h1] at h; cases h
    | some v =>
      rw [h1] at h
      cases h
      exact ⟨v, rfl, rfl⟩
  · intro h
    have hv : valuess m (.cons (.int 4) (.cons (.int 8) .nil)) a 0 = [rd m a 4, rd m (a + 8) 8] := by
      simp [valuess, values, roundUp, align, Ty.size]
    rw [hv]
    simp only [known, direct, Nat.add_zero] at h
    cases h1 : rd m a 4 with
    | none => rw [h1] at h; cases h
    | some s =>
      cases h2 : rd m (a + 8) 8 with
      | none => rw [h1, h2] at h; cases h
      | some i =>
        rw [h1, h2] at h
        cases h
        exact ⟨s, i, rfl, rfl⟩
  · intro h
    have hv : valuess m (.cons (.int 4) (.cons (.int 8) (.cons (.int 8) (.cons (.int 4) (.cons (.int 8)
        (.cons (.int 8) .nil)))))) a 0 = [rd m a 4, rd m (a + 8) 8, rd m (a + 16) 8,
          rd m (a + 24) 4, rd m (a + 32) 8, rd m (a + 40) 8] := by
      simp [valuess, values, roundUp, align, Ty.size]
    rw [hv]
    simp only [known, direct, Nat.add_zero] at h
    cases h1 : rd m a 4 with
    | none => rw [h1] at h; cases h
    | some l =>
    cases h2 : rd m (a + 8) 8 with
    | none => rw [h1, h2] at h; cases h
    | some r =>
    cases h3 : rd m (a + 16) 8 with
    | none => rw [h1, h2, h3] at h; cases h
    | some n =>
    cases h4 : rd m (a + 24) 4 with
    | none => rw [h1, h2, h3, h4] at h; cases h
    | some x =>
    cases h5 : rd m (a + 32) 8 with
    | none => rw [h1, h2, h3, h4, h5] at h; cases h
    | some y =>
    cases h6 : rd m (a + 40) 8 with
    | none => rw [h1, h2, h3, h4, h5, h6] at h; cases h
    | some z =>
      rw [h1, h2, h3, h4, h5, h6] at h
      dsimp only at h
      cases hu : unicode m n with
      | abort => rw [hu] at h; cases h
      | fault => rw [hu] at h; cases h
      | ok u =>
        rw [hu] at h
        cases h
        exact ⟨l, r, n, u, x, y, z, rfl, hu, rfl⟩

/-- The string `A` of length 2 at 16, its text at 32. -/
example : unicode (fun a => if a = 0 then none else if a = 16 then some 2 else if a = 24 then some 32
    else if a = 32 then some 65 else some 0) 16 = .ok [.num 2, .num 0, .wstr [65]] := by
  decide +kernel

/-- C80: little-endian, a byte at a time. -/
theorem C80_little_endian (m : Mem) (a : Nat) {l : List Nat}
    (h : ∀ i (hi : i < l.length), m (a + i) = some l[i]) :
    rd m a l.length = some (l.foldr (fun b v => b + 256 * v) 0) := by
  have key : ∀ n, n ≤ l.length → rd m a n = some ((l.take n).foldr (fun b v => b + 256 * v) 0) := by
    intro n
    induction n with
    | zero => intro _; rfl
    | succ n ih =>
      intro hn
      rw [rd, ih (by omega), h n (by omega)]
      dsimp only
      rw [Option.some.injEq, List.take_succ_eq_append_getElem (by omega), List.foldr_append]
      have : ∀ (k : List Nat) (b : Nat), k.foldr (fun b v => b + 256 * v) b =
          k.foldr (fun b v => b + 256 * v) 0 + b * 256 ^ k.length := by
        intro k
        induction k with
        | nil => intro b; simp
        | cons x k ih =>
          intro b
          rw [List.foldr_cons, List.foldr_cons, ih b, List.length_cons, Nat.pow_succ, Nat.mul_add,
            Nat.add_assoc]
          congr 2
          rw [Nat.mul_comm 256, Nat.mul_assoc]
      rw [this _ (List.foldr _ 0 [l[n]])]
      simp [Nat.min_eq_left (Nat.le_of_lt (show n < l.length by omega))]
  have := key l.length (Nat.le_refl _)
  rwa [List.take_length] at this

/-! ## Named constants -/

theorem sepBy_eq (s : String) : ∀ l, sepBy s l = joined s l
  | [] => rfl
  | [_] => rfl
  | x :: y :: l => by rw [sepBy, joined, sepBy_eq s (y :: l)]; simp

/-- C80: a value that constants of the group have is printed as all their names.  For constants below
2^31, or of either sign where pointers have 32 bits. -/
theorem C80_exact_partial {w v : Nat} {cs : List (Nat × String)}
    (hc : w ≠ 64 ∨ ∀ c ∈ cs, c.1 < 2 ^ 31) (h : ∃ c ∈ cs, c.1 = v) :
    enumName w (some cs) v = (joined " or " ((cs.filter fun c => c.1 = v).map (·.2)), true) := by
  have hcv : ∀ c ∈ cs, cval w c.1 = c.1 := by
    intro c hm
    unfold cval
    rw [if_neg]
    rintro ⟨h1, h2⟩
    rcases hc with hc | hc
    · exact hc h1
    · exact Nat.not_le.2 (hc c hm) h2
  have hf : (cs.filter fun c => v == cval w c.1) = cs.filter fun c => c.1 = v := by
    apply List.filter_congr
    intro c hm
    rw [hcv c hm]
    rw [Bool.eq_iff_iff]
    simp only [beq_iff_eq, decide_eq_true_eq]
    exact eq_comm
  obtain ⟨c, h1, h2⟩ := h
  unfold enumName
  dsimp only
  rw [hf, if_pos, sepBy_eq]
  intro he
  have : c ∈ cs.filter fun c => c.1 = v := List.mem_filter.2 ⟨h1, by simpa using h2⟩
  rw [he] at this
  cases this

/-- C80: a value that none of the constants has is printed as the names of all constants whose bits it
contains, if there are any, and else as a number. -/
theorem C80_flags_partial {w v : Nat} {cs : List (Nat × String)}
    (hc : w ≠ 64 ∨ ∀ c ∈ cs, c.1 < 2 ^ 31) (h : ∀ c ∈ cs, c.1 ≠ v) :
    enumName w (some cs) v =
      if (∃ c ∈ cs, c.1 &&& v = c.1) then
        (joined "|" ((cs.filter fun c => c.1 &&& v = c.1).map (·.2)), true)
      else ([.num v], false) := by
  have hcv : ∀ c ∈ cs, cval w c.1 = c.1 := by
    intro c hm
    unfold cval
    rw [if_neg]
    rintro ⟨h1, h2⟩
    rcases hc with hc | hc
    · exact hc h1
    · exact Nat.not_le.2 (hc c hm) h2
  have hf : (cs.filter fun c => v == cval w c.1) = [] := by
    rw [List.filter_eq_nil_iff]
    intro c hm
    rw [hcv c hm]
    simp only [beq_iff_eq]
    exact fun q => h c hm q.symm
  have hs : (cs.filter fun c => (cval w c.1 &&& v) == cval w c.1) =
      cs.filter fun c => c.1 &&& v = c.1 := by
    apply List.filter_congr
    intro c hm
    rw [hcv c hm]
    rw [Bool.eq_iff_iff]
    simp only [beq_iff_eq, decide_eq_true_eq]
  unfold enumName
  dsimp only
  rw [hf, if_neg (by simp), hs]
  by_cases hx : ∃ c ∈ cs, c.1 &&& v = c.1
  · rw [if_pos hx, if_pos, sepBy_eq]
    obtain ⟨c, h1, h2⟩ := hx
    intro he
    have : c ∈ cs.filter fun c => c.1 &&& v = c.1 := List.mem_filter.2 ⟨h1, by simpa using h2⟩
    rw [he] at this
    cases this
  · rw [if_neg hx, if_neg]
    rw [Classical.not_not, List.filter_eq_nil_iff]
    intro c hm q
    exact hx ⟨c, hm, by simpa using q⟩

/-- drstrace/drstrace_named_consts.c:2227-2235, in part. -/
def secFile : List (Nat × String) :=
  [(0x00800000, "SEC_FILE"), (0x01000000, "SEC_IMAGE"), (0x08000000, "SEC_COMMIT"),
   (0x80000000, "SEC_LARGE_PAGES")]

example : enumName 32 (some secFile) 0x01000000 = ([.txt "SEC_IMAGE"], true) ∧
    enumName 32 (some secFile) 0x88000000 =
      ([.txt "SEC_COMMIT", .txt "|", .txt "SEC_LARGE_PAGES"], true) := by decide +kernel

/-- C80, against the code: where pointers have 64 bits, a constant of 2^31 or more names no argument of
32 bits: it is extended with its sign, the argument with zeroes. -/
theorem C80_high {raw : Nat} {cs : List (Nat × String)} {c : Nat × String} (h1 : 2 ^ 31 ≤ c.1)
    (hu : ∀ d ∈ cs, d.2 = c.2 → d = c) (hs : c.2 ≠ " or " ∧ c.2 ≠ "|") :
    Tok.txt c.2 ∉ (enumName 64 (some cs) (argValue raw 4)).1 := by
  have hv : argValue raw 4 < 2 ^ 32 := by
    unfold argValue
    rw [if_neg (by decide), if_neg (by decide), if_pos rfl]
    exact Nat.mod_lt _ (by decide +kernel)
  have hcv : 2 ^ 32 ≤ cval 64 c.1 := by
    unfold cval
    rw [if_pos ⟨rfl, h1⟩]
    have : (2 : Nat) ^ 32 ≤ 2 ^ 31 + (2 ^ 64 - 2 ^ 32) := by decide +kernel
    omega
  have hmem : ∀ (s : String) (l : List String), c.2 ≠ s → Tok.txt c.2 ∈ sepBy s l → c.2 ∈ l := by
    intro s l hne
    rw [sepBy_eq]
    induction l with
    | nil => intro h; cases h
    | cons x l ih =>
      cases l with
      | nil =>
        intro h
        rw [joined, List.mem_singleton] at h
        cases h
        exact List.mem_cons_self
      | cons y l =>
        intro h
        rw [joined] at h
        · rcases List.mem_cons.1 h with h | h
          · cases h; exact List.mem_cons_self
          · rcases List.mem_cons.1 h with h | h
            · cases h; exact absurd rfl hne
            · exact List.mem_cons_of_mem _ (ih h)
        · intro q; cases q
  generalize argValue raw 4 = v at hv
  intro hin
  unfold enumName at hin
  dsimp only at hin
  split at hin
  · have := hmem _ _ hs.1 hin
    obtain ⟨d, hd, e⟩ := List.mem_map.1 this
    obtain ⟨h2, h3⟩ := List.mem_filter.1 hd
    rw [hu d h2 e] at h3
    simp only [beq_iff_eq] at h3
    omega
  · split at hin
    · have := hmem _ _ hs.2 hin
      obtain ⟨d, hd, e⟩ := List.mem_map.1 this
      obtain ⟨h2, h3⟩ := List.mem_filter.1 hd
      rw [hu d h2 e] at h3
      simp only [beq_iff_eq] at h3
      have := Nat.and_le_right (n := cval 64 c.1) (m := v)
      omega
    · rw [List.mem_singleton] at hin
      cases hin

/-- Large pages are named in a 32-bit tracer only. -/
example : enumName 64 (some secFile) (argValue 0x88000000 4) = ([.txt "SEC_COMMIT"], true) ∧
    enumName 64 (some secFile) (argValue 0x80000000 4) = ([.num 0x80000000], false) := by
  decide +kernel

/-- C80, against the code: a constant of value zero is among the names of every combination. -/
theorem C80_zero_named {w v : Nat} {cs : List (Nat × String)} {s : String}
    (hc : w ≠ 64 ∨ ∀ c ∈ cs, c.1 < 2 ^ 31) (h : ∀ c ∈ cs, c.1 ≠ v) (h0 : (0, s) ∈ cs) :
    ∃ l, enumName w (some cs) v = (joined "|" l, true) ∧ s ∈ l := by
  rw [C80_flags_partial hc h, if_pos ⟨_, h0, Nat.zero_and v⟩]
  exact ⟨_, rfl, List.mem_map.2 ⟨(0, s), List.mem_filter.2 ⟨h0, by simp [Nat.zero_and]⟩, rfl⟩⟩

/-- C80: an argument for which constants are given is always printed with its value, named or not. -/
theorem C80_value_shown {m : Mem} {w : Nat} {g : Arg} (he : g.enum = true)
    (ht : ∀ k, g.type ≠ .struct k) (hp : g.pre = true) (hr : g.retval = false) :
    ∃ l, argCb m w g = .ok l ∧ Tok.num g.value ∈ l := by
  have hs : ∃ l, symname m w g = some (.ok l) ∧ Tok.num g.value ∈ l := by
    unfold symname
    split
    · rename_i k hk
      exact absurd hk (ht k)
    · dsimp only
      refine ⟨_, rfl, ?_⟩
      split
      · simp
      · rename_i h
        unfold enumName at h ⊢
        split
        · simp
        · dsimp only
          split
          · rename_i h1
            simp_all
          · split
            · simp_all
            · simp
  obtain ⟨l, h1, h2⟩ := hs
  refine ⟨l, ?_, h2⟩
  unfold argCb printArg
  rw [if_pos (by simp [hp, hr]), if_pos he, h1]
  rfl

/-! ## Arguments -/

/-- C80: before the call every argument is printed but the result, after it the outputs and the
result. -/
theorem C80_which {m : Mem} {w : Nat} {g : Arg} :
    argCb m w g = if (g.pre = true ∧ g.retval = false) ∨
        (g.pre = false ∧ (g.out = true ∨ g.retval = true)) then printArg m w g else .ok [] := by
  unfold argCb
  cases g.pre <;> cases g.out <;> cases g.retval <;> simp

/-- C80: a number is printed as its value.  For a pointer, the number behind it follows if it is an
input before the call, or an output after it, and can be read.  For at most eight bytes: see
`C80_pointee_big`. -/
theorem C80_simple_partial {m : Mem} {w : Nat} {g : Arg} (ht : g.type = .simple)
    (he : g.enum = false) (h8 : g.size ≤ 8) :
    printArg m w g =
      if g.inlined = false ∧ ((g.pre = true ∧ g.inp = true) ∨ (g.pre = false ∧ g.out = true)) ∧
          (rd m g.value g.size).isSome then
        .ok [.num g.value, .txt " => ", .num ((rd m g.value g.size).getD 0)]
      else .ok [.num g.value] := by
  unfold printArg byType
  rw [he, if_neg (by simp), ht]
  dsimp only
  unfold simple
  rw [if_neg (show ¬ 8 < g.size by omega)]
  cases g.inlined <;> cases g.pre <;> cases g.inp <;> cases g.out <;> cases rd m g.value g.size <;>
    simp

/-- C80, against the code: for more than eight bytes behind a pointer the application is ended. -/
theorem C80_pointee_big {m : Mem} {w : Nat} {g : Arg} (ht : g.type = .simple) (he : g.enum = false)
    (hi : g.inlined = false) (hd : g.pre = true ∧ g.inp = true) (h8 : 8 < g.size) :
    printArg m w g = .abort := by
  unfold printArg byType
  rw [he, if_neg (by simp), ht]
  dsimp only
  unfold simple
  rw [hi, hd.1, hd.2, if_pos (by simp), if_pos h8]

/-- C80, against the code: inlined numbers of the other types, such as `SIZE_T`, are not printed: zero
is shown as a null pointer and every other value as not implemented. -/
theorem C80_not_shown {m : Mem} {w : Nat} {g : Arg} (ht : g.type = .otherInline)
    (he : g.enum = false) (hd : g.inp = true) :
    printArg m w g = if g.value = 0 then .ok [.null] else .ok [.nyi] := by
  unfold printArg byType
  rw [he, if_neg (by simp), ht, hd]
  dsimp only
  by_cases h : g.value = 0
  · rw [if_pos h, if_pos h]
  · rw [if_neg h, if_neg h, if_neg (by simp)]

/-- C80: a structure with debug information is printed after the call, from the address passed, if all
its parts are known; a null pointer is said to be one. -/
theorem C80_struct_when {m : Mem} {w : Nat} {g : Arg} {k : Kind} {t : Ty} (ht : g.type = .struct k)
    (he : g.enum = true) (hx : g.expand = some t) (hk : allKnown t = true) (hp : g.pre = false) :
    printArg m w g = if g.value = 0 then .ok [.txt "NULL"] else printTy m t g.value := by
  unfold printArg symname infoClass
  rw [if_pos he, ht]
  dsimp only
  rw [hx]
  dsimp only
  rw [hk, hp, if_neg (by simp), if_neg (by simp)]
  split <;> rfl

/-- C80: a structure of other types that is not expanded, for whatever reason, is printed as its address
if it is an output before the call, and marked as not implemented else. -/
theorem C80_struct_else {m : Mem} {w : Nat} {g : Arg} (ht : g.type = .struct .other)
    (hx : g.enum = false ∨ g.expand = none ∨ g.pre = true ∨ ∃ t, g.expand = some t ∧ allKnown t = false) :
    printArg m w g = .ok [if g.value = 0 then .null
      else if g.pre = true ∧ g.inp = false then .num g.value else .nyi] := by
  have hb : byType m g = .ok [if g.value = 0 then .null
      else if g.pre = true ∧ g.inp = false then .num g.value else .nyi] := by
    unfold byType
    rw [ht]
    dsimp only
    by_cases h0 : g.value = 0
    · rw [if_pos h0, if_pos h0]
    · rw [if_neg h0, if_neg h0]
      cases g.pre <;> cases g.inp <;> simp [known]
  unfold printArg
  by_cases he : g.enum = true
  · rw [if_pos he]
    have hs : symname m w g = none := by
      unfold symname
      rw [ht]
      dsimp only
      unfold infoClass
      rcases hx with h | h | h | ⟨t, h1, h2⟩
      · rw [h] at he; cases he
      · rw [h]
      · cases hh : g.expand with
        | none => rfl
        | some t =>
          dsimp only
          split
          · rfl
          · rfl
      · rw [h1]
        dsimp only
        rw [if_pos h2]
    rw [hs]
    exact hb
  · rw [if_neg he]
    exact hb

mutual
/-- No part of size zero, and no field that points to one. -/
def Spec.Known : Ty → Prop
  | .comp _ _ fs => Spec.Knowns fs
  | t => t.size ≠ 0
/-- The same for fields. -/
def Spec.Knowns : Tys → Prop
  | .nil => True
  | .cons t ts => Spec.Known t ∧ (∀ n e, t = .ptr n e → e.size ≠ 0) ∧ Spec.Knowns ts
end

mutual
theorem allKnown_iff : ∀ t, allKnown t = true ↔ Spec.Known t
  | .comp k n fs => by rw [allKnown, Spec.Known]; exact allKnowns_iff fs
  | .void n => by simp [allKnown, Spec.Known]
  | .ptr n e => by simp [allKnown, Spec.Known]
  | .arr n => by simp [allKnown, Spec.Known]
  | .int n => by simp [allKnown, Spec.Known]
theorem allKnowns_iff : ∀ ts, allKnowns ts = true ↔ Spec.Knowns ts
  | .nil => by simp [allKnowns, Spec.Knowns]
  | .cons t ts => by
    have h1 := allKnown_iff t
    have h2 := allKnowns_iff ts
    rw [Spec.Knowns, ← h1, ← h2]
    cases t with
    | ptr n e =>
      simp only [allKnowns, Bool.and_eq_true, decide_eq_true_eq, Ty.ptr.injEq]
      constructor
      · rintro ⟨⟨h1, h2⟩, h3⟩
        exact ⟨h2, fun _ _ h => by rw [← h.2]; exact h1, h3⟩
      · rintro ⟨h1, h2, h3⟩
        exact ⟨⟨h2 n e ⟨rfl, rfl⟩, h1⟩, h3⟩
    | void n => simp [allKnowns]
    | arr n => simp [allKnowns]
    | int n => simp [allKnowns]
    | comp k n fs => simp [allKnowns]
end

/-- C80: a structure is passed over iff a part of it, or what a field points to, has no size; what a
pointed-to structure contains is not looked at. -/
theorem C80_known_iff (t : Ty) : allKnown t = true ↔ Spec.Known t := allKnown_iff t

/-- A structure, one of whose fields points to another with a field of unknown type. -/
example : allKnown (.comp .other 8 (.cons (.ptr 8 (.comp .other 4 (.cons (.void 0) .nil))) .nil)) = true ∧
    allKnown (.comp .other 8 (.cons (.ptr 8 (.void 0)) .nil)) = false := by
  simp [allKnown, allKnowns, Ty.size]

end Verif.Strace
