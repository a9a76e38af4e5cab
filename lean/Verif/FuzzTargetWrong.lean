import Verif.FuzzTargetProps
/-
C75: where the descriptor of a fuzz target does not do what it says, and examples.
-/
namespace Verif.FuzzTarget

/-- C75 fails: a descriptor whose module is not loaded when the fuzzer starts is forgotten at once
("Skipping fuzz target for now"), and whatever is loaded later, it is never fuzzed. -/
theorem C75_later_lost (cfg : Cfg) {d : List Char} {t : Target} {loaded : List Mod} (hp : parse cfg d = .ok t)
    (hl : ∀ m ∈ loaded, m.name ≠ t.module) (es : List Ev) :
    begin cfg d loaded = .ok freed ∧ (events freed es).enabled = false := by
  constructor
  · have : loaded.find? (fun m => m.name == t.module) = none := by
      rw [List.find?_eq_none]
      intro m hm
      simp [hl m hm]
    unfold begin
    split
    · rfl
    · rw [hp]
      dsimp only
      rw [this]
  · rw [events_freed]; rfl

/-- C75 fails: once its module is unloaded the target is forgotten, also when the module comes back. -/
theorem C75_unloaded_lost {l : Life} {m : Mod} (h1 : l.enabled = true) (h2 : l.start = m.start) (es : List Ev) :
    (events l (Ev.unload m :: es)).enabled = false := by
  rw [events_cons]
  have : event l (.unload m) = freed := by
    unfold event
    dsimp only
    rw [if_pos ⟨h1, h2⟩]
  rw [this, events_freed]
  rfl

/-- C75 fails: a calling convention of the options that is none of the known ones is not replaced by the
default, as the warning says (fuzzer.c:430-431); nothing is stored, and the table of its registers is NULL
(fuzzer.c:978-985), which create_shadow_state does not check (fuzzer.c:1009, 1073-1076).  A known one of
another machine is such a one too. -/
theorem C75_option_convention (cfg : Cfg) {s : List Char}
    (h1 : s ≠ ['s', 't', 'd', 'c', 'a', 'l', 'l'])
    (h2 : s ≠ ['f', 'a', 's', 't', 'c', 'a', 'l', 'l'])
    (h3 : s ≠ ['t', 'h', 'i', 's', 'c', 'a', 'l', 'l']) (h4 : s ≠ ['a', 'm', 'd', '6', '4'])
    (h5 : s ≠ ['m', 's', '6', '4']) (h6 : s ≠ ['a', 'r', 'm', '3', '2']) :
    regCount cfg.arch (optionConv cfg (some s)) = none := by
  have : optionConv cfg (some s) = 0 := by
    unfold optionConv
    dsimp only
    rw [if_neg h1, if_neg h2, if_neg h3, if_neg (fun h => h4 h.2.2), if_neg (fun h => h5 h.2.2), if_neg (fun h => h6 h.2)]
  rw [this]
  cases cfg.arch <;> rfl

/-- A configuration: Linux on 64 bits, where the default convention is that of AMD64. -/
def lin : Cfg := ⟨false, .x64, 1, some "app".toList⟩

/-- The same function by the options is fuzzed when its library comes, and by the descriptor it is not. -/
theorem C75_later_differs : ∃ (d : List Char) (t : Target) (es : List Ev),
    parse lin d = .ok t ∧ begin lin d [⟨"app".toList, 4096, true⟩] = .ok freed ∧ (events freed es).enabled = false ∧
      (events (beginOptions t.module) es).enabled = true :=
  ⟨"lib.so!f|2|0|1|10".toList,
    described "lib.so".toList (.inl "lib!f".toList) "2".toList "0".toList "1".toList 10 1 6,
    [.load ⟨"lib.so".toList, 8192, true⟩], by decide +kernel, by decide +kernel, by decide +kernel, by decide +kernel⟩

/-- C75 fails: a module with a plus in its name cannot be given. -/
theorem C75_plus_module : parse lin "libstdc++.so.6!f|1|0|0|1".toList = .abort := by decide +kernel

/-- C75 fails: the blanks of a module are not put back, so that its name is that of no module. -/
theorem C75_blank_module : ∃ t, parse lin "my app!f|2|0|1|5".toList = .ok t ∧ t.module = "my\x01app".toList ∧
    t.func = .inl "my app!f".toList :=
  ⟨described "my\x01app".toList (.inl "my app!f".toList) "2".toList "0".toList "1".toList 5 1 6,
    by decide +kernel, rfl, rfl⟩

/-- C75 fails: the indices of the buffer and of the size are not compared with the count of arguments. -/
theorem C75_index_unchecked : ∃ t, parse lin "a!f|2|7|9|1".toList = .ok t ∧ t.argCount < t.bufferArg ∧
    t.argCount < t.sizeArg :=
  ⟨described "a".toList (.inl "a!f".toList) "2".toList "7".toList "9".toList 1 1 6,
    by decide +kernel, by decide +kernel, by decide +kernel⟩

/-- C75 fails: a negative count of arguments is a large one. -/
theorem C75_negative_args : ∃ t, parse lin "a!f|-1|0|1|1".toList = .ok t ∧ t.argCount = 4294967295 := by
  refine ⟨⟨"a".toList, .inl "a!f".toList, 4294967295, 0, 1, 1, 1, 6, 4294967289⟩, by decide +kernel, rfl⟩

/-- C75 fails: what follows the digits of a field, and further fields, are passed over. -/
theorem C75_junk : parse lin "a!f|2x|0|1|1|4|zzz".toList = parse lin "a!f|2|0|1|1|4".toList ∧
    parse lin "a!f|2|0|1|1|4".toList ≠ .abort := by
  constructor <;> decide +kernel

/-- C75 fails: of the code of the convention only 8 bits count, so that 257 is taken for 1. -/
theorem C75_convention_wraps : parse lin "a!f|2|0|1|1|257".toList = parse lin "a!f|2|0|1|1|1".toList ∧
    parse lin "a!f|2|0|1|1|1".toList ≠ .abort ∧ parse lin "a!f|2|0|1|1|7".toList = .abort := by
  refine ⟨?_, ?_, ?_⟩ <;> decide +kernel

/-- "cdecl" and "ms64" on Linux are none of the known ones. -/
example : regCount lin.arch (optionConv lin (some "cdecl".toList)) = none ∧
    regCount lin.arch (optionConv lin (some "ms64".toList)) = none ∧
    regCount lin.arch (optionConv lin (some "amd64".toList)) = some 6 := by decide +kernel

/-! ## Cases that meet the hypotheses -/

instance (s : List Char) : Decidable (Field s) := by unfold Field; infer_instance
instance (s : List Char) : Decidable (Number s) := by unfold Number; infer_instance
instance (s : List Char) : Decidable (ModName s) := by unfold ModName; infer_instance
instance (s : List Char) : Decidable (SymName s) := by unfold SymName; infer_instance
instance (s : List Char) : Decidable (HexNumber s) := by unfold HexNumber; infer_instance

/-- A symbol with blanks, a count of -1, and a convention. -/
example : parse lin "lib.so!std::f(int, char)|3|0|2|-1|4".toList =
    .ok ⟨"lib.so".toList, .inl "lib!std::f(int, char)".toList, 3, 0, 2, 4294967295, 4, 0, 3⟩ :=
  C75_symbol lin (m := "lib.so".toList) (f := "std::f(int, char)".toList) (a := "3".toList) (b := "0".toList)
    (c := "2".toList) (r := "-1".toList) (v := 4294967295) (k := ["4".toList]) (code := 4) (n := 0) (by decide +kernel)
    (by decide +kernel) (by decide +kernel) (by decide +kernel) (by decide +kernel) (by decide +kernel)
    (by decide +kernel) (Or.inr ⟨"1".toList, by decide +kernel, by decide +kernel, by decide +kernel⟩)
    (Or.inr ⟨"4".toList, rfl, by decide +kernel, by decide +kernel⟩) rfl

example : parse lin "a.exe!?f--YAXXZ|2|0|1|7".toList =
    .ok ⟨"a.exe".toList, .inl "?f@@YAXXZ".toList, 2, 0, 1, 7, 1, 2, 0⟩ :=
  C75_mangled lin (m := "a.exe".toList) (f := "?f--YAXXZ".toList) (a := "2".toList) (b := "0".toList)
    (c := "1".toList) (r := "7".toList) (v := 7) (k := []) (code := 1) (n := 6) (by decide +kernel)
    (by decide +kernel) (by decide +kernel) (by decide +kernel) (by decide +kernel) (by decide +kernel)
    (Or.inl ⟨by decide +kernel, by decide +kernel⟩) (Or.inl ⟨rfl, rfl⟩) rfl

example : parse lin "<main>!f|8|0|1|7".toList = .ok ⟨"app".toList, .inl "app!f".toList, 8, 0, 1, 7, 1, 6, 2⟩ :=
  C75_main lin (m := "app".toList) (f := "f".toList) (a := "8".toList) (b := "0".toList)
    (c := "1".toList) (r := "7".toList) (v := 7) (k := []) (code := 1) (n := 6) rfl (by decide +kernel)
    (by decide +kernel) (by decide +kernel) (by decide +kernel) (by decide +kernel) (by decide +kernel)
    (Or.inl ⟨by decide +kernel, by decide +kernel⟩) (Or.inl ⟨rfl, rfl⟩) rfl

example : parse lin "lib.so+0xf7D4|2|0|1|7".toList = .ok ⟨"lib.so".toList, .inr 0xf7d4, 2, 0, 1, 7, 1, 2, 0⟩ :=
  C75_offset lin (m := "lib.so".toList) (h := "f7D4".toList) (a := "2".toList) (b := "0".toList)
    (c := "1".toList) (r := "7".toList) (v := 7) (k := []) (code := 1) (n := 6) (by decide +kernel)
    (by decide +kernel) (by decide +kernel) (by decide +kernel) (by decide +kernel)
    (Or.inl ⟨by decide +kernel, by decide +kernel⟩) (Or.inl ⟨rfl, rfl⟩) rfl

example : parse lin "lib.so f|2|0|1|7".toList = .abort := C75_no_separator lin (by decide +kernel)

example : parse lin "lib.so!f|2|0|1".toList = .abort :=
  C75_missing lin (m := "lib.so".toList) (f := "f".toList) (ns := ["2".toList, "0".toList, "1".toList])
    (by decide +kernel) (by decide +kernel) (by decide) (by decide +kernel)

example : parse lin "lib.so!f|2|zero|1|7".toList = .abort :=
  C75_not_a_number lin (m := "lib.so".toList) (f := "f".toList) (ns := ["2".toList]) (x := 'z') (xs := "ero".toList)
    (more := ["1".toList, "7".toList]) (by decide +kernel) (by decide +kernel) (by decide) (by decide +kernel)
    (by decide +kernel) (by decide) (by decide) (by decide +kernel)

example : ∃ l, begin lin "<main>!f|2|0|1|7".toList [⟨"app".toList, 4096, true⟩] = .ok l ∧
    (events l [.load ⟨"lib.so".toList, 8192, true⟩, .unload ⟨"lib.so".toList, 8192, true⟩]).enabled = true ∧
    (events l [.load ⟨"lib.so".toList, 8192, true⟩, .unload ⟨"lib.so".toList, 8192, true⟩]).start = 4096 :=
  C75_loaded_partial lin
    (t := described "app".toList (.inl "app!f".toList) "2".toList "0".toList "1".toList 7 1 6)
    (m := ⟨"app".toList, 4096, true⟩) (by decide +kernel) (by decide +kernel) (by decide +kernel) rfl (by decide)
    (by
      intro x hx
      rcases List.mem_cons.mp hx with h | h
      · cases h
      · have := List.mem_singleton.mp h
        injection this with this
        rw [this]
        decide)

example : (events (beginOptions "lib.so".toList)
    [.load ⟨"a.so".toList, 4096, true⟩, .load ⟨"lib.so".toList, 8192, true⟩]).enabled = true :=
  (C75_options_later (name := "lib.so".toList) (es := [.load ⟨"a.so".toList, 4096, true⟩]) (es' := [])
    (m := ⟨"lib.so".toList, 8192, true⟩) rfl rfl (by decide)
    (by
      intro x hx
      have := List.mem_singleton.mp hx
      injection this with this
      rw [this]
      decide +kernel)
    (by intro x hx; cases hx)).1

end Verif.FuzzTarget
