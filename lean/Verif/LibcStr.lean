import Verif.LibcMem

/-!
# Model of the replaced libc string routines (drmemory/replace.c)

Memory is as in `LibcMem`: one element per address (`char` for the narrow routines, `wchar_t` for
the wide ones, which have the same text), `none` where nothing may be accessed.  Values are the
unsigned values of the elements.  NULL is `none` in results.
-/
namespace Verif.Libc

/-- replace_strchr, drmemory/replace.c:321-335 (`w` = 8), replace_wcschr, 337-351 (`w` = 32). -/
def strchr (w : Nat) (m : Mem) (str find : Nat) (fuel : Nat) : Out (Option Nat) :=
  loopF (fun s => (ld m s).bind fun v =>
    if v = find % 2 ^ w then .ok (.inr (some s))
    else if v = 0 then .ok (.inr none)
    else .ok (.inl (s + 1))) fuel str

/-- replace_strrchr, drmemory/replace.c:353-368 (`w` = 8), replace_wcsrchr, 370-385 (`w` = 32).
State: `s`, `last`. -/
def strrchr (w : Nat) (m : Mem) (str find : Nat) (fuel : Nat) : Out (Option Nat) :=
  loopF (fun (s, last) => (ld m s).bind fun v =>
    let last := if v = find % 2 ^ w then some s else last
    if v = 0 then .ok (.inr last) else .ok (.inl (s + 1, last))) fuel (str, none)

/-- replace_strchrnul, drmemory/replace.c:388-399. -/
def strchrnul (m : Mem) (str find : Nat) (fuel : Nat) : Out Nat :=
  loopF (fun s => (ld m s).bind fun v =>
    if v ≠ 0 then
      if v = find % 256 then .ok (.inr s) else .ok (.inl (s + 1))
    else .ok (.inr s)) fuel str

/-- replace_strlen, drmemory/replace.c:402-409; replace_wcslen, 411-418. -/
def strlen (m : Mem) (str : Nat) (fuel : Nat) : Out Nat :=
  (whileF (fun s => (ld m s).bind fun v => .ok (decide (v ≠ 0))) (fun s => .ok (s + 1)) fuel str).bind
    fun s => .ok (s - str)

/-- replace_strnlen, drmemory/replace.c:420-427; replace_wcsnlen, 429-436. -/
def strnlen (m : Mem) (str max : Nat) (fuel : Nat) : Out Nat :=
  (whileF (fun s => if s - str < max then (ld m s).bind fun v => .ok (decide (v ≠ 0)) else .ok false)
    (fun s => .ok (s + 1)) fuel str).bind fun s => .ok (s - str)

/-- One turn of the comparison loops on elements `a`, `b`; `none` goes on
(drmemory/replace.c:444-455, 465-476, 488-499, 522-532, 547-557, 568-579). -/
def cmpElt (a b : Nat) : Option Int :=
  if a = 0 then (if b = 0 then some 0 else some (-1))
  else if b = 0 then some 1
  else if a < b then some (-1)
  else if b < a then some 1
  else none

/-- replace_tolower_ascii, drmemory/replace.c:506-512. -/
def tolowerAscii (c : Nat) : Nat := if 65 ≤ c ∧ c ≤ 90 then c + 32 else c

/-- `fold` is the identity: replace_strcmp, drmemory/replace.c:482-503, and replace_wcscmp, 564-583
(which compares the elements as unsigned values); `fold` is `tolower`: replace_strcasecmp, 514-537,
with the ASCII `tolower` of 506-512. -/
def strcmp (fold : Nat → Nat) (m : Mem) (str1 str2 : Nat) (fuel : Nat) : Out Int :=
  loopF (fun (s1, s2) => (ld m s1).bind fun a => (ld m s2).bind fun b =>
    match cmpElt (fold a) (fold b) with
    | some r => .ok (.inr r)
    | none => .ok (.inl (s1 + 1, s2 + 1))) fuel (str1, str2)

/-- replace_strncmp, drmemory/replace.c:438-459, replace_wcsncmp, 461-480, and, with `fold` =
`tolower`, replace_strncasecmp, 539-562. -/
def strncmp (fold : Nat → Nat) (m : Mem) (str1 str2 size : Nat) (fuel : Nat) : Out Int :=
  loopF (fun (s1, s2, n) =>
    if 0 < n then
      (ld m s1).bind fun a => (ld m s2).bind fun b =>
      match cmpElt (fold a) (fold b) with
      | some r => .ok (.inr r)
      | none => .ok (.inl (s1 + 1, s2 + 1, n - 1))
    else .ok (.inr 0)) fuel (str1, str2, size)

/-- `while (*s != '\0') *d++ = *s++; *d = '\0';` and the final `d`: replace_stpcpy,
drmemory/replace.c:624-633.  State: `d`, `s`, memory. -/
def stpcpy (m : Mem) (dst src : Nat) (fuel : Nat) : Out (Mem × Nat) :=
  (whileF (fun (_, s, m) => (ld m s).bind fun v => .ok (decide (v ≠ 0)))
    (fun (d, s, m) => (ld m s).bind fun v => (sto m d v).bind fun m => .ok (d + 1, s + 1, m))
    fuel (dst, src, m)).bind fun (d, _, m) =>
  (sto m d 0).bind fun m => .ok (m, d)

/-- replace_strcpy, drmemory/replace.c:585-594; replace_wcscpy, 596-605. -/
def strcpy (m : Mem) (dst src : Nat) (fuel : Nat) : Out Mem :=
  (stpcpy m dst src fuel).bind fun (m, _) => .ok m

/-- The loop `while (size > 0 && *s != '\0') { *d++ = *s++; size--; }`
(drmemory/replace.c:612-615, 655-658).  State: `d`, `s`, `size`, memory. -/
def copyN (fuel : Nat) : CpSt → Out CpSt :=
  whileF (fun c => if 0 < c.n then (ld c.m c.s).bind fun v => .ok (decide (v ≠ 0)) else .ok false)
    cpByte fuel

/-- replace_strncpy, drmemory/replace.c:607-622. -/
def strncpy (m : Mem) (dst src size : Nat) (fuel : Nat) : Out Mem :=
  (copyN fuel ⟨dst, src, size, m⟩).bind fun c =>
  (whileF (fun s : SetSt => .ok (decide (0 < s.n))) (setByte 0) fuel ⟨c.d, c.n, c.m⟩).bind fun s =>
  .ok s.m

/-- `while (*d != '\0') d++;` (drmemory/replace.c:639-640, 653-654). -/
def findEnd (m : Mem) (fuel : Nat) : Nat → Out Nat :=
  whileF (fun s => (ld m s).bind fun v => .ok (decide (v ≠ 0))) (fun s => .ok (s + 1)) fuel

/-- replace_strcat, drmemory/replace.c:635-643. -/
def strcat (m : Mem) (dst src : Nat) (fuel : Nat) : Out Mem :=
  (findEnd m fuel dst).bind fun d => strcpy m d src fuel

/-- replace_strncat, drmemory/replace.c:645-661. -/
def strncat (m : Mem) (dst src size : Nat) (fuel : Nat) : Out Mem :=
  (findEnd m fuel dst).bind fun d =>
  (copyN fuel ⟨d, src, size, m⟩).bind fun c => sto c.m c.d 0

/-- `bool table[UCHAR_MAX]` (drmemory/replace.c:667, 682): 255 entries, indices 0 to 254.  A read. -/
def tblGet (t : Nat → Bool) (i : Nat) : Out Bool := if i < 255 then .ok (t i) else .fault

/-- A write to the table (drmemory/replace.c:670, 685). -/
def tblSet (t : Nat → Bool) (i : Nat) (b : Bool) : Out (Nat → Bool) :=
  if i < 255 then .ok (fun j => if j = i then b else t j) else .fault

/-- replace_strspn, drmemory/replace.c:663-676 (`b` = true), replace_strcspn, 678-691
(`b` = false): the table is filled with `!b` and the elements of the second string are set to `b`;
then the elements whose entry is true are counted. -/
def spn (b : Bool) (m : Mem) (str set : Nat) (fuel : Nat) : Out Nat :=
  (whileF (fun ((s, _) : Nat × (Nat → Bool)) => (ld m s).bind fun v => .ok (decide (v ≠ 0)))
    (fun (s, t) => (ld m s).bind fun v => (tblSet t v b).bind fun t => .ok (s + 1, t))
    fuel (set, fun (_ : Nat) => !b)).bind fun (_, t) =>
  (whileF (fun cur => (ld m cur).bind fun v => if v ≠ 0 then tblGet t v else .ok false)
    (fun cur => .ok (cur + 1)) fuel str).bind fun cur => .ok (cur - str)

/-- One turn of the loop of replace_strstr (drmemory/replace.c:701-712, wide: 724-735). -/
def strstrStep (m : Mem) (needle : Nat) (st : Nat × Nat) : Out ((Nat × Nat) ⊕ Option Nat) :=
  (ld m st.1).bind fun a =>
  if a = 0 then .ok (.inr none) else
  (ld m st.2).bind fun b =>
  let st' := if a ≠ b ∧ needle < st.2 then (st.1 - (st.2 - 1 - needle), needle) else st
  (ld m st'.1).bind fun a' => (ld m st'.2).bind fun b' =>
  if a' = b' then
    (ld m (st'.2 + 1)).bind fun z =>
    if z = 0 then .ok (.inr (some (st'.1 - (st'.2 + 1 - 1 - needle))))
    else .ok (.inl (st'.1 + 1, st'.2 + 1))
  else .ok (.inl (st'.1 + 1, st'.2))

/-- replace_strstr, drmemory/replace.c:693-714; replace_wcsstr, 716-737. -/
def strstr (m : Mem) (haystack needle : Nat) (fuel : Nat) : Out (Option Nat) :=
  (ld m needle).bind fun c =>
  if c = 0 then .ok (some haystack)
  else loopF (strstrStep m needle) fuel (haystack, needle)

end Verif.Libc
