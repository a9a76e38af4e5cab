import Verif.FastX86

/-!
Lemmas on running emitted code piece by piece, and on shadow bytes as four 2-bit states.
-/

namespace Verif.FastX86

/-- The state of byte `j` of the dword whose shadow byte is `v` (shadow.h:40-60: two bits for each
byte, the lowest byte in the lowest bits). -/
def dig (v : BitVec 8) (j : Nat) : BitVec 2 := v.extractLsb' (2 * j) 2

/-- The bits for `sz` bytes. -/
def fmask (sz : Nat) : BitVec 8 := if sz = 1 then 0x03 else if sz = 2 then 0x0f else 0xff

/-- `old` with the `sz` bytes from `off` on replaced by the first bytes of `x`. -/
def put (old x : BitVec 8) (off sz : Nat) : BitVec 8 :=
  (old &&& ~~~(fmask sz <<< (2 * off))) ||| ((x &&& fmask sz) <<< (2 * off))

theorem dig_put (old x : BitVec 8) {off sz j : Nat} (hs : sz = 1 ∨ sz = 2 ∨ sz = 4)
    (ho : off + sz ≤ 4) (hj : j < 4) :
    dig (put old x off sz) j = if off ≤ j ∧ j < off + sz then dig x (j - off) else dig old j := by
  have ho' : off = 0 ∨ off = 1 ∨ off = 2 ∨ off = 3 := by omega
  have hj' : j = 0 ∨ j = 1 ∨ j = 2 ∨ j = 3 := by omega
  rcases hs with rfl | rfl | rfl <;> rcases ho' with rfl | rfl | rfl | rfl <;>
    first
    | omega
    | (rcases hj' with rfl | rfl | rfl | rfl <;>
        (apply BitVec.eq_of_getLsbD_eq; intro i hi
         have hi' : i = 0 ∨ i = 1 := by omega
         rcases hi' with rfl | rfl <;> simp [dig, put, fmask]))

/-- Running a piece of code: it ends in `s'`, at its end or on the way to a label. -/
def Goes (e : Env) (c : List Ins) (s : St) (l : Option Lbl) (s' : St) : Prop :=
  ∀ rest, run e (c ++ rest) none s = run e rest l s'

theorem Goes.nil (e : Env) (s : St) : Goes e [] s none s := fun _ => rfl

theorem Goes.append {e : Env} {c d : List Ins} {s s1 s2 : St} {l : Option Lbl}
    (h : Goes e c s none s1) (h2 : Goes e d s1 l s2) : Goes e (c ++ d) s l s2 := by
  intro rest
  rw [List.append_assoc, h, h2]

/-- Code without the label `l` is skipped. -/
theorem run_skip (e : Env) (l : Lbl) (c rest : List Ins) (s : St) (h : Ins.label l ∉ c) :
    run e (c ++ rest) (some l) s = run e rest (some l) s := by
  induction c with
  | nil => rfl
  | cons i is ih =>
    simp only [List.cons_append, run]
    rw [if_neg (fun hc => h (by simp [hc])), ih (fun hc => h (by simp [hc]))]

theorem Goes.skip {e : Env} {c d : List Ins} {s s1 : St} {l : Lbl}
    (h : Goes e c s (some l) s1) (hd : Ins.label l ∉ d) : Goes e (c ++ d) s (some l) s1 := by
  intro rest
  rw [List.append_assoc, h, run_skip e l d rest s1 hd]

end Verif.FastX86

namespace Verif.FastX86

/-- Neither a jump nor a label. -/
def Ins.straight : Ins → Bool
  | .jcc _ _ | .label _ => false
  | _ => true

/-- Straight-line code. -/
def execL (e : Env) : List Ins → St → St
  | [], s => s
  | i :: is, s => execL e is (if i.ok then exec e s i else { s with wild := true })

theorem goes_execL (e : Env) (c : List Ins) (s : St) (h : c.all Ins.straight = true) :
    Goes e c s none (execL e c s) := by
  induction c generalizing s with
  | nil => exact Goes.nil e s
  | cons i is ih =>
    simp only [List.all_cons, Bool.and_eq_true] at h
    intro rest
    have := ih (if i.ok then exec e s i else { s with wild := true }) h.2 rest
    cases i <;> simp_all [run, execL, Ins.straight]

theorem goes_jcc (e : Env) (b : Bool) (l : Lbl) (s : St) :
    Goes e [.jcc b l] s (if s.zf = b then some l else none) s := fun _ => rfl

/-- Straight-line code followed by a jump. -/
theorem goes_check (e : Env) (c : List Ins) (b : Bool) (l : Lbl) (s : St)
    (h : c.all Ins.straight = true) :
    Goes e (c ++ [.jcc b l]) s (if (execL e c s).zf = b then some l else none) (execL e c s) :=
  (goes_execL e c s h).append (goes_jcc e b l _)

/-- The shadow of two states is the same, and nothing went wrong in the second. -/
structure Same (s s' : St) : Prop where
  slots : s'.slots = s.slots
  flags : s'.flags = s.flags
  mem : s'.mem = s.mem
  wild : s'.wild = false

theorem Same.trans {a b c : St} (h : Same a b) (h2 : Same b c) : Same a c :=
  ⟨h2.slots.trans h.slots, h2.flags.trans h.flags, h2.mem.trans h.mem, h2.wild⟩

theorem Same.refl {a : St} (h : a.wild = false) : Same a a := ⟨rfl, rfl, rfl, h⟩

end Verif.FastX86
