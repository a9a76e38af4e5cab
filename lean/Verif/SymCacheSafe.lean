import Verif.SymCacheRead

/-
Symbol cache files of arbitrary contents (C44): which files can be read without
an access outside the mapping or through NULL.
-/

namespace Verif.SymCache

/-- The computation does not crash, and its result satisfies `P`. -/
def Safe {α : Type} (P : α → Prop) : Except Stop α → Prop
  | .ok a => P a
  | .error e => e ≠ .crash

theorem Safe.bind {α β : Type} {P : α → Prop} {Q : β → Prop} {r : Except Stop α}
    {f : α → Except Stop β} (h : Safe P r) (hf : ∀ a, P a → Safe Q (f a)) :
    Safe Q (r >>= f) := by
  cases r with
  | error e => exact h
  | ok a => exact hf a h

theorem Safe.mono {α : Type} {P Q : α → Prop} {r : Except Stop α} (h : Safe P r)
    (hpq : ∀ a, P a → Q a) : Safe Q r := by
  cases r with
  | error e => exact h
  | ok a => exact hpq a h

/-- Text without NUL that ends in a newline, then the zero bytes of the mapping. -/
def Text (pad : Nat) (s : Str) : Prop :=
  ∃ a, s = a ++ 10 :: List.replicate pad 0 ∧ ∀ x ∈ a, x ≠ 0

/-- A pointer into such a mapping. -/
def Ptr (pad : Nat) (s : Str) : Prop := Text pad s ∨ s = List.replicate pad 0

theorem Ptr.ne {pad : Nat} (hp : 0 < pad) {s : Str} (h : Ptr pad s) : s ≠ [] := by
  rcases h with ⟨a, h, _⟩ | h
  · rw [h]; simp
  · rw [h]
    intro hh
    have := congrArg List.length hh
    simp at this
    omega

theorem Ptr.text {pad : Nat} {x : Nat} {xs : Str} (h : Ptr pad (x :: xs)) (hx : x ≠ 0) :
    Text pad (x :: xs) := by
  rcases h with h | h
  · exact h
  · cases pad with
    | zero => simp at h
    | succ n =>
      rw [List.replicate_succ] at h
      exact absurd (List.cons.inj h).1 hx

theorem Text.tail {pad : Nat} {x : Nat} {xs : Str} (h : Text pad (x :: xs)) : Ptr pad xs := by
  obtain ⟨a, h1, h2⟩ := h
  cases a with
  | nil =>
    right
    exact (List.cons.inj h1).2
  | cons y a =>
    left
    exact ⟨a, (List.cons.inj h1).2, fun z hz => h2 z (List.mem_cons_of_mem _ hz)⟩

theorem Ptr.tail {pad : Nat} {x : Nat} {xs : Str} (h : Ptr pad (x :: xs)) (hx : x ≠ 0) :
    Ptr pad xs := (h.text hx).tail

variable {pad : Nat} (hp : 0 < pad)
include hp

theorem strchr_safe {c : Nat} (hc : c ≠ 0) : ∀ {s : Str}, Ptr pad s →
    Safe (fun r => ∀ t, r = some t → ∃ t', t = c :: t' ∧ Text pad t) (strchr c s)
  | [], h => absurd rfl (h.ne hp)
  | x :: xs, h => by
    unfold strchr
    by_cases hx : x = c
    · rw [if_pos hx]
      intro t ht
      cases ht
      exact ⟨xs, by rw [hx], h.text (by rw [hx]; exact hc)⟩
    · rw [if_neg hx]
      by_cases h0 : x = 0
      · rw [if_pos h0]
        intro t ht
        cases ht
      · rw [if_neg h0]
        exact strchr_safe hc (h.tail h0)

/-- In a text there is a newline. -/
theorem strchr_newline : ∀ {s : Str}, Text pad s → ∃ t, strchr 10 s = .ok (some (10 :: t))
  | [], h => absurd rfl (Ptr.ne hp (.inl h))
  | x :: xs, h => by
    unfold strchr
    by_cases hx : x = 10
    · rw [if_pos hx, hx]; exact ⟨xs, rfl⟩
    · rw [if_neg hx]
      obtain ⟨a, h1, h2⟩ := h
      cases a with
      | nil => exact absurd (List.cons.inj h1).1 hx
      | cons y a =>
        have h3 := List.cons.inj h1
        have hy := h2 y (List.mem_cons_self ..)
        rw [if_neg (by rw [h3.1]; exact hy)]
        exact strchr_newline ⟨a, h3.2, fun z hz => h2 z (List.mem_cons_of_mem _ hz)⟩

/-- The rest of a string after characters that are neither comma nor NUL. -/
def Rest (s s' : Str) : Prop := ∃ pre, s = pre ++ s' ∧ ∀ x ∈ pre, x ≠ 44 ∧ x ≠ 0

omit hp in
theorem Rest.cons {x : Nat} {s s' : Str} (h : Rest s s') (hx : x ≠ 44 ∧ x ≠ 0) :
    Rest (x :: s) s' := by
  obtain ⟨pre, h1, h2⟩ := h
  refine ⟨x :: pre, by rw [h1]; rfl, ?_⟩
  intro y hy
  rcases List.mem_cons.1 hy with h | h
  · rw [h]; exact hx
  · exact h2 y h

omit hp in
theorem Rest.refl (s : Str) : Rest s s := ⟨[], rfl, by simp⟩

omit hp in
theorem Rest.trans {a b c : Str} (h : Rest a b) (h' : Rest b c) : Rest a c := by
  obtain ⟨p, h1, h2⟩ := h
  obtain ⟨q, h3, h4⟩ := h'
  refine ⟨p ++ q, by rw [h1, h3, List.append_assoc], ?_⟩
  intro y hy
  rcases List.mem_append.1 hy with h | h
  · exact h2 y h
  · exact h4 y h

theorem skipWs_safe : ∀ {s : Str}, Ptr pad s → Safe (fun r => Ptr pad r ∧ Rest s r) (skipWs s)
  | [], h => absurd rfl (h.ne hp)
  | x :: xs, h => by
    unfold skipWs
    by_cases hx : x = 32 ∨ (9 ≤ x ∧ x ≤ 13)
    · rw [if_pos hx]
      refine (skipWs_safe (h.tail (by omega))).mono ?_
      rintro a ⟨h1, h2⟩
      exact ⟨h1, h2.cons (by omega)⟩
    · rw [if_neg hx]
      exact ⟨h, Rest.refl _⟩

omit hp in
theorem dval_digit {b c v : Nat} (h : dval b c = some v) : c ≠ 44 ∧ c ≠ 0 := by
  constructor <;> intro hc <;> subst hc <;> simp [dval] at h

theorem scanDigits_safe {b : Nat} : ∀ {s : Str} (acc : Nat), Ptr pad s →
    Safe (fun r => Ptr pad r.2 ∧ Rest s r.2) (scanDigits b acc s)
  | [], _, h => absurd rfl (h.ne hp)
  | x :: xs, acc, h => by
    unfold scanDigits
    cases hd : dval b x with
    | none => exact ⟨h, Rest.refl _⟩
    | some v =>
      refine (scanDigits_safe _ (h.tail (dval_digit hd).2)).mono ?_
      rintro a ⟨h1, h2⟩
      exact ⟨h1, h2.cons (dval_digit hd)⟩

omit hp in
theorem skip0x_safe {b : Nat} {s : Str} (h : Ptr pad s) :
    Ptr pad (skip0x b s) ∧ Rest s (skip0x b s) := by
  unfold skip0x
  split
  · rename_i xs
    split
    · exact ⟨(h.tail (by omega)).tail (by omega),
        ((Rest.refl xs).cons (x := 120) (by omega)).cons (by omega)⟩
    · exact ⟨h, Rest.refl _⟩
  · exact ⟨h, Rest.refl _⟩

theorem scanNum_safe {b w : Nat} {s : Str} (h : Ptr pad s) :
    Safe (fun r => ∀ v, r = some v → Ptr pad v.2 ∧ Rest s v.2) (scanNum b w s) := by
  unfold scanNum
  refine (skipWs_safe hp h).bind ?_
  rintro s1 ⟨h1, r1⟩
  obtain ⟨h2, r2⟩ := skip0x_safe (b := b) h1
  generalize skip0x b s1 = s2 at h2 r2
  cases s2 with
  | nil => exact absurd rfl (h2.ne hp)
  | cons x xs =>
    simp only
    cases hd : dval b x with
    | none => intro v hv; cases hv
    | some v =>
      refine (scanDigits_safe hp (b := b) 0 h2).bind ?_
      rintro a ⟨h3, r3⟩ v hv
      cases hv
      exact ⟨h3, r1.trans (r2.trans r3)⟩

theorem scanLit_safe {c : Nat} (hc : c ≠ 0) {s : Str} (h : Ptr pad s) :
    Safe (fun r => ∀ t, r = some t → Ptr pad t ∧ s = c :: t) (scanLit c s) := by
  cases s with
  | nil => exact absurd rfl (h.ne hp)
  | cons x xs =>
    unfold scanLit
    intro t ht
    split at ht
    · rename_i hx
      cases ht
      exact ⟨h.tail (by rw [hx]; exact hc), by rw [hx]⟩
    · cases ht

omit hp in
theorem orReject_safe {α : Type} {P : α → Prop} {o : Option α} (h : ∀ a, o = some a → P a) :
    Safe P (orReject o) := by
  cases o with
  | none => exact fun hh => by cases hh
  | some a => exact h a rfl

omit hp in
theorem strchr_rest {s s' : Str} (h : Rest s (44 :: s')) :
    strchr 44 s = .ok (some (44 :: s')) := by
  obtain ⟨pre, h1, h2⟩ := h
  rw [h1]
  exact strchr_spec h2 s'

theorem readMd5_safe : ∀ (n : Nat) {line : Str}, Text pad line →
    Safe (fun r => Text pad r.2) (readMd5 n line)
  | 0, line, h => h
  | n + 1, line, h => by
    unfold readMd5
    refine (scanLit_safe hp (by omega) (.inl h)).bind ?_
    intro o ho
    refine (orReject_safe ho).bind ?_
    rintro s ⟨hs, hline⟩
    refine (scanNum_safe hp hs).bind ?_
    intro o ho
    refine (orReject_safe ho).bind ?_
    rintro v _
    split
    · exact fun hh => by cases hh
    · split
      · exact h
      · rw [hline]
        refine (strchr_safe hp (by omega) hs).bind ?_
        intro o ho
        refine (orReject_safe ho).bind ?_
        rintro t ⟨_, _, ht⟩
        refine (readMd5_safe n ht).bind ?_
        intro r hr
        exact hr

theorem readIdent_safe {id : Ident} {size : Nat} {line : Str} (h : Ptr pad line) :
    Safe (fun r => Text pad r) (readIdent id size line) := by
  unfold readIdent
  refine (scanNum_safe hp h).bind ?_
  intro o ho
  refine (orReject_safe ho).bind ?_
  rintro a ⟨ha, ra⟩
  refine (scanLit_safe hp (by omega) ha).bind ?_
  intro o ho
  refine (orReject_safe ho).bind ?_
  rintro s1 ⟨h1, e1⟩
  refine (scanNum_safe hp h1).bind ?_
  intro o ho
  refine (orReject_safe ho).bind ?_
  rintro b ⟨hb, rb⟩
  refine (scanLit_safe hp (by omega) hb).bind ?_
  intro o ho
  refine (orReject_safe ho).bind ?_
  rintro s2 ⟨h2, e2⟩
  refine (scanNum_safe hp h2).bind ?_
  intro o ho
  refine (orReject_safe ho).bind ?_
  rintro c _
  rw [e1] at ra
  rw [e2] at rb
  rw [strchr_rest ra]
  show Safe _ (strchr 44 s1 >>= _)
  rw [strchr_rest rb]
  show Safe _ (strchr 44 s2 >>= _)
  refine (strchr_safe hp (by omega) h2).bind ?_
  intro o ho
  refine (orReject_safe ho).bind ?_
  rintro t ⟨_, _, ht⟩
  refine (readMd5_safe hp 16 ht).bind ?_
  intro r hr
  split
  · exact fun hh => by cases hh
  · split
    · exact fun hh => by cases hh
    · exact hr

omit hp in
theorem symbolAdd_safe (t : Table) (sym : Str) (x : Nat) :
    Safe (fun _ => True) (symbolAdd t sym x) := by
  unfold symbolAdd
  split
  · rename_i o _
    unfold OList.add
    split
    · split <;> exact True.intro
    · split
      · exact fun hh => by cases hh
      · split <;> exact True.intro
  · exact True.intro

theorem scanOffs_safe {s : Str} (h : Ptr pad s) : Safe (fun _ => True) (scanOffs s) := by
  unfold scanOffs
  refine (scanLit_safe hp (by omega) h).bind ?_
  intro o ho
  cases o with
  | none => exact True.intro
  | some s1 =>
    refine (scanLit_safe hp (by omega) (ho s1 rfl).1).bind ?_
    intro o ho
    cases o with
    | none => exact True.intro
    | some s2 =>
      refine (scanLit_safe hp (by omega) (ho s2 rfl).1).bind ?_
      intro o ho
      cases o with
      | none => exact True.intro
      | some s3 =>
        refine (scanNum_safe hp (ho s3 rfl).1).bind ?_
        intro _ _
        exact True.intro

theorem readLines_safe : ∀ (n : Nat) {line : Str} (symbol : Str) (t : Table), Ptr pad line →
    Safe (fun _ => True) (readLines pad n line symbol t)
  | 0, _, _, _, _ => True.intro
  | n + 1, line, symbol, t, h => by
    unfold readLines
    split
    · exact True.intro
    · refine (strchr_safe hp (by omega) h).bind ?_
      intro comma hc
      refine (strchr_safe hp (by omega) h).bind ?_
      intro newline hn
      cases comma with
      | none => exact True.intro
      | some c =>
        dsimp only
        generalize (if 0 < line.length - c.length ∧ line.length - c.length < maxSymlen
          then line.take (line.length - c.length) else symbol) = sym
        by_cases hif : line.length - c.length < maxSymlen ∧ sym ≠ []
        · rw [if_pos hif]
          obtain ⟨_, _, hct⟩ := hc c rfl
          refine (scanOffs_safe hp (.inl hct)).bind ?_
          intro o _
          cases o with
          | none => exact True.intro
          | some offs =>
            refine (symbolAdd_safe _ _ _).bind ?_
            intro r _
            cases newline with
            | none => exact True.intro
            | some nl =>
              obtain ⟨nl', e, hnl⟩ := hn nl rfl
              subst e
              exact readLines_safe n _ _ hnl.tail
        · rw [if_neg hif]
          exact True.intro

omit hp in
/-- C44: a cache file whose last byte is a newline, without NUL bytes and of a size
that is no multiple of the page size, is read without a wild access, whatever
else it contains.  Partial: it may abort the process (`C44_abort`), and without
these conditions it may crash it (`C44_crash`, `C44_crash_page`). -/
theorem C44_no_crash_partial (id : Ident) (hasSyms : Bool) (f : Str)
    (hlast : f.getLast? = some 10) (h0 : 0 ∉ f) (hsize : f.length % 4096 ≠ 0) :
    readFile id hasSyms (some f) ≠ .error .crash := by
  obtain ⟨a, hf⟩ : ∃ a, f = a ++ [10] := by
    obtain ⟨a, ha⟩ := List.getLast?_eq_some_iff.1 hlast
    exact ⟨a, ha⟩
  replace h0 : ∀ x ∈ a, x ≠ 0 := by
    intro x hx hx0
    apply h0
    rw [hf, ← hx0]
    exact List.mem_append_left _ hx
  obtain ⟨pad, hpad⟩ : ∃ p, padding f.length = p := ⟨_, rfl⟩
  have hp : 0 < pad := by
    rw [← hpad]
    unfold padding
    omega
  have hT : Text pad (f ++ List.replicate (padding f.length) 0) :=
    ⟨a, by rw [hf, ← hpad, hf]; simp, h0⟩
  have : Safe (fun _ => True) (readFile id hasSyms (some f)) := by
    unfold readFile
    dsimp only
    by_cases hl0 : f.length = 0
    · rw [if_pos hl0]
      exact fun hh => by cases hh
    · rw [if_neg hl0]
      generalize f ++ List.replicate (padding f.length) 0 = mem at hT ⊢
      by_cases hh : mem.take header.length ≠ header
      · rw [if_pos hh]
        exact fun hh => by cases hh
      · rw [if_neg hh]
        have hdrop : Ptr pad (mem.drop (header.length + 1)) := by
          obtain ⟨b, h1, h2⟩ := hT
          have htk : mem.take header.length = header := Classical.not_not.1 hh
          have hge : header.length ≤ b.length := by
            rcases Nat.lt_or_ge b.length header.length with hlt | hge
            · exfalso
              have h3 : (10 : Nat) ∈ header := by
                rw [← htk, h1, List.take_append]
                apply List.mem_append_right
                obtain ⟨k, hk⟩ : ∃ k, header.length - b.length = k + 1 :=
                  ⟨header.length - b.length - 1, by omega⟩
                rw [hk, List.take_succ_cons]
                exact List.mem_cons_self ..
              revert h3
              decide
            · exact hge
          rcases Nat.lt_or_ge header.length b.length with hlt | hge'
          · left
            refine ⟨b.drop (header.length + 1), ?_, fun x hx => h2 x (List.mem_of_mem_drop hx)⟩
            rw [h1, List.drop_append_of_le_length (by omega)]
          · right
            have hbl : b.length = header.length := by omega
            rw [h1]
            have : b ++ 10 :: List.replicate pad 0 = (b ++ [10]) ++ List.replicate pad 0 := by simp
            rw [this]
            exact List.drop_left' (by simp [hbl])
        refine (scanNum_safe hp hdrop).bind ?_
        intro o ho
        refine (orReject_safe (P := fun _ => True) (fun _ _ => True.intro)).bind ?_
        intro v _
        split
        · exact fun hh => by cases hh
        · obtain ⟨l, hl⟩ := strchr_newline hp hT
          rw [hl]
          have hl' := strchr_safe hp (c := 10) (by omega) (.inl hT)
          rw [hl] at hl'
          obtain ⟨_, _, hlt⟩ := hl' _ rfl
          show Safe _ (readIdent id f.length l >>= _)
          refine (readIdent_safe hp hlt.tail).bind ?_
          intro line hline
          unfold readBody
          obtain ⟨l2, hl2⟩ := strchr_newline hp hline
          have hl2' := strchr_safe hp (c := 10) (by omega) (.inl hline)
          rw [hl2] at hl2' ⊢
          obtain ⟨_, _, hl2t⟩ := hl2' _ rfl
          show Safe _ (scanNum 10 32 l2 >>= _)
          refine (scanNum_safe hp hl2t.tail).bind ?_
          intro o ho
          refine (orReject_safe (P := fun _ => True) (fun _ _ => True.intro)).bind ?_
          intro d _
          split
          · exact fun hh => by cases hh
          · refine (strchr_safe hp (c := 10) (by omega) hl2t.tail).bind ?_
            intro o ho
            cases o with
            | none => exact True.intro
            | some l3 =>
              obtain ⟨l3', e, hl3⟩ := ho l3 rfl
              subst e
              rw [hpad]
              refine (readLines_safe hp _ [] [] hl3.tail).bind ?_
              intro _ _
              exact True.intro
  intro hc
  rw [hc] at this
  exact this rfl

/-- The file with the lines `body` after the first three, which have the format that
`symcache_write_symfile` writes, with the right size. -/
def fileWith (body : Str) : Str :=
  let f := writeFile sampleId true [] ++ body
  f.take sizeLoc ++ padTo 32 10 (fmt 10 f.length) ++ f.drop (sizeLoc + 10)

omit hp in
/-- C44: a file that ends after the version number crashes the reader. -/
theorem C44_crash :
    readFile sampleId false (some (header ++ [32, 49, 54])) = .error .crash :=
  C33_crash

omit hp in
/-- C44: a file of exactly one page with a last line without comma is read beyond its
end, although all its fields match and it ends in a newline. -/
theorem C44_crash_page :
    ∃ f : Str, f.length = 4096 ∧ f.getLast? = some 10 ∧ 0 ∉ f ∧
      readFile sampleId false (some f) = .error .crash := by
  refine ⟨fileWith (List.replicate 3981 97 ++ [10]), ?_, ?_, ?_, ?_⟩ <;> decide +kernel

omit hp in
/-- C44: two offsets of which the second is 0 abort the process that reads the file. -/
theorem C44_abort :
    readFile sampleId false
      (some (fileWith [102, 44, 48, 120, 53, 10, 44, 48, 120, 48, 10])) = .error .abort := by
  decide +kernel

omit hp in
/-- A file whose conditions hold and that has two lines which are no entries: the reader
stops there with what it has. -/
example :
    let f := fileWith [102, 44, 48, 120, 53, 10, 10, 44, 44, 10]
    readFile sampleId false (some f) ≠ .error .crash ∧
      readFile sampleId false (some f) = .ok ([([102], ⟨[5], none⟩)], true) := by
  refine ⟨C44_no_crash_partial _ _ _ ?_ ?_ ?_, ?_⟩ <;> decide +kernel

end Verif.SymCache
