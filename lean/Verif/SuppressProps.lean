import Verif.Suppress
/-!
# Properties C05 and C07: suppression matching
-/
namespace Verif.Suppress

/-! ## The matcher call is the glob language of C01 -/

theorem globB_iff (ic : Bool) (p t : Bytes) : globB ic p t = true ↔ Glob.Matches (Glob.ceq ic) p t := by
  induction p generalizing t with
  | nil => rw [globB.eq_def, Glob.matches_nil_iff]; exact List.isEmpty_iff
  | cons c p ih =>
    rw [globB.eq_def]
    dsimp only
    by_cases hc : c = Glob.star
    · subst hc
      rw [if_pos rfl, Glob.matches_star_iff, List.any_eq_true]
      constructor
      · rintro ⟨k, hk, h⟩
        rw [List.mem_range] at hk
        exact ⟨k, by omega, (ih _).1 h⟩
      · rintro ⟨k, hk, h⟩
        exact ⟨k, by rw [List.mem_range]; omega, (ih _).2 h⟩
    · rw [if_neg hc, Glob.matches_cons_iff hc]
      cases t with
      | nil => simp
      | cons d t =>
        rw [Bool.and_eq_true, Bool.or_eq_true, decide_eq_true_iff, beq_iff_eq, Glob.fold_iff, ih]
        constructor
        · rintro ⟨h1, h2⟩; exact ⟨d, t, rfl, h1, h2⟩
        · rintro ⟨d', t', e, h1, h2⟩
          injection e with e1 e2
          subst e1 e2
          exact ⟨h1, h2⟩

/-- The model's matcher call is what the code of C01 returns. -/
theorem globB_is_code (ic : Bool) (p t : Bytes) (ht : (0 : UInt8) ∉ t) (hp : (0 : UInt8) ∉ p) :
    Glob.Returns ic t p (globB ic p t) := by
  obtain ⟨b, h1, h2⟩ := Glob.C01_glob_exact ic t p ht hp
  have : b = globB ic p t := by
    rw [Bool.eq_iff_iff, h2, globB_iff]
  rwa [← this]

theorem modMatch_iff (cfg : Cfg) (f : Frame) (p : SFrame) :
    modMatch cfg f p = true ↔ ModSpec cfg f p := by
  unfold modMatch ModSpec
  cases p.modname with
  | none => simp
  | some m => simp [globB_iff]

/-- The frame test of the code is the specification of a line, for every ordinary line. -/
theorem frameMatch_iff (cfg : Cfg) (f : Frame) (p : SFrame) (hp : p.isEllipsis = false) :
    frameMatch cfg f p = true ↔ LineSpec cfg f p := by
  unfold frameMatch
  rw [hp]
  cases hs : p.isStar with
  | true => simp; exact .star hs
  | false =>
    cases hm : p.isModule with
    | false =>
      cases hf : p.func with
      | none =>
        simp
        intro h
        cases h <;> simp_all
      | some pat =>
        simp [globB_iff]
        constructor
        · rintro ⟨h1, h2⟩; exact .nonmod pat hs hm h1 hf h2
        · intro h; cases h <;> simp_all
    | true =>
      cases hf : p.func with
      | none =>
        cases ho : p.modoffs with
        | none =>
          simp
          intro h; cases h <;> simp_all
        | some pat =>
          simp [globB_iff, modMatch_iff]
          constructor
          · rintro ⟨h1, h2, h3⟩; exact .modOffs pat hs hm h1 h2 hf ho h3
          · intro h; cases h <;> simp_all
      | some pat =>
        simp [globB_iff, modMatch_iff]
        constructor
        · rintro ⟨h1, h2, h3⟩; exact .modFunc pat hs hm h1 h2 hf h3
        · intro h; cases h <;> simp_all

/-! ## Termination -/

/-- Termination measure of the matching loop. -/
def meas (n : Nat) (s : St) : Nat × Nat × Nat :=
  (s.supp.length, (match s.last with | none => n + 2 | some (l, _) => n + 1 - l), n - s.i)

/-- Bookkeeping invariant: the open ellipsis is not after the current frame, and `i` stays in range. -/
def Inv0 (F : List Frame) (s : St) : Prop :=
  s.i ≤ F.length ∧ ∀ l e, s.last = some (l, e) → l ≤ s.i

theorem lt_of_getElem? {F : List Frame} {i : Nat} {f : Frame} (h : F[i]? = some f) : i < F.length := by
  rw [List.getElem?_eq_some_iff] at h; exact h.1

theorem step_inv0 {cfg : Cfg} {F : List Frame} {s s' : St} (h : Inv0 F s)
    (hs : step cfg F s = .inl s') : Inv0 F s' ∧
      (inferInstance : WellFoundedRelation (Nat × Nat × Nat)).rel (meas F.length s') (meas F.length s) := by
  obtain ⟨h1, h2⟩ := h
  unfold step at hs
  cases hf : F[s.i]? with
  | none => simp [hf] at hs
  | some f =>
    have hi := lt_of_getElem? hf
    simp only [hf] at hs
    cases hsp : s.supp with
    | nil => simp [hsp] at hs
    | cons p rest =>
      simp only [hsp] at hs
      split at hs
      · split at hs
        · injection hs with hs; subst hs
          refine ⟨⟨h1, ?_⟩, Prod.Lex.left _ _ (by show rest.length < s.supp.length; simp [hsp])⟩
          intro l e he; simp at he; simp; omega
        · injection hs with hs; subst hs
          refine ⟨⟨hi, ?_⟩, Prod.Lex.left _ _ (by show rest.length < s.supp.length; simp [hsp])⟩
          intro l e he
          have := h2 l e he
          simp; omega
      · have other : ∀ {r : St ⊕ Bool},
            r = (if s.i = 0 ∧ skipTop cfg f then .inl ⟨1, p :: rest, s.last⟩
              else if s.i = 0 ∧ skipSupp cfg p then .inl ⟨0, rest, s.last⟩ else .inr false) →
            r = .inl s' → Inv0 F s' ∧
            (inferInstance : WellFoundedRelation (Nat × Nat × Nat)).rel (meas F.length s')
              (meas F.length s) := by
          intro r hr hr'
          rw [hr'] at hr
          split at hr
          · rename_i hz
            injection hr with hr; subst hr
            refine ⟨⟨by simp; omega, ?_⟩, ?_⟩
            · intro l e he
              have := h2 l e he
              simp; omega
            · simp only [meas, hsp]
              exact Prod.Lex.right _ (Prod.Lex.right _ (by show F.length - 1 < F.length - s.i; omega))
          · split at hr
            · rename_i hz
              injection hr with hr; subst hr
              refine ⟨⟨by simp, ?_⟩, Prod.Lex.left _ _ (by show rest.length < s.supp.length; simp [hsp])⟩
              intro l e he
              have := h2 l e he
              simp; omega
            · simp at hr
        cases hl : s.last with
        | none =>
          simp only [hl] at hs
          exact other (by rw [hl]) hs
        | some q =>
          obtain ⟨l, e⟩ := q
          simp only [hl] at hs
          split at hs
          · injection hs with hs; subst hs
            have := h2 l e hl
            refine ⟨⟨by simp; omega, ?_⟩, ?_⟩
            · intro l' e' he; simp at he; simp; omega
            · simp only [meas, hsp, hl]
              exact Prod.Lex.right _ (Prod.Lex.left _ _ (by show F.length + 1 - (l + 1) < F.length + 1 - l; omega))
          · exact other (by rw [hl]) hs

/-- The matching loop always stops, whatever the suppression and the callstack. -/
theorem returns_exists (cfg : Cfg) (S : List SFrame) (F : List Frame) : ∃ b, Returns cfg S F b := by
  obtain ⟨b, h, _⟩ := Runs.of_inv (step := step cfg F) (Inv0 F) (fun _ => True) (meas F.length)
    (fun s s' h hs => step_inv0 h hs) (fun _ _ _ _ => trivial) ⟨0, S, none⟩
    ⟨by simp, by simp⟩
  exact ⟨b, h⟩

/-- Proof rule for partial correctness: an invariant that implies the postcondition at the end. -/
theorem returns_post (cfg : Cfg) (S : List SFrame) (F : List Frame) (I : St → Prop) (Post : Bool → Prop)
    (h0 : I ⟨0, S, none⟩)
    (hl : ∀ s s', Inv0 F s → I s → step cfg F s = .inl s' → I s')
    (hr : ∀ s b, Inv0 F s → I s → step cfg F s = .inr b → Post b) :
    ∃ b, Returns cfg S F b ∧ Post b := by
  exact Runs.of_inv (step := step cfg F) (fun s => Inv0 F s ∧ I s) Post (meas F.length)
    (fun s s' h hs => ⟨⟨(step_inv0 h.1 hs).1, hl s s' h.1 h.2 hs⟩, (step_inv0 h.1 hs).2⟩)
    (fun s b h hs => hr s b h.1 h.2 hs) ⟨0, S, none⟩ ⟨⟨by simp, by simp⟩, h0⟩

/-! ## Inversion lemmas for the specification -/

theorem describes_frame_iff {cfg : Cfg} {p : SFrame} {S : List SFrame} {F : List Frame}
    (hp : p.isEllipsis = false) :
    Describes cfg (p :: S) F ↔ ∃ f F', F = f :: F' ∧ frameMatch cfg f p = true ∧ Describes cfg S F' := by
  constructor
  · intro h
    cases h with
    | frame _ h1 h2 => exact ⟨_, _, rfl, (frameMatch_iff cfg _ _ hp).2 h1, h2⟩
    | plain k h1 _ _ _ => rw [hp] at h1; cases h1
    | module k h1 _ _ _ _ _ => rw [hp] at h1; cases h1
  · rintro ⟨f, F', rfl, h1, h2⟩; exact .frame hp ((frameMatch_iff cfg _ _ hp).1 h1) h2

theorem describes_plain_iff {cfg : Cfg} {p : SFrame} {S : List SFrame} {F : List Frame}
    (hp : p.isEllipsis = true) (hm : p.isModule = false) :
    Describes cfg (p :: S) F ↔ ∃ k, k ≤ F.length ∧ Describes cfg S (F.drop k) := by
  constructor
  · intro h
    cases h with
    | frame h1 _ _ => rw [hp] at h1; cases h1
    | plain k _ _ h1 h2 => exact ⟨k, h1, h2⟩
    | module k _ h1 _ _ _ _ => rw [hm] at h1; cases h1
  · rintro ⟨k, h1, h2⟩; exact .plain k hp hm h1 h2

/-- Well-formed specification for the theorems below: no `module!...` line, and the last line is not
an ellipsis (the parser rejects that, drmemory/report.c:544-548). -/
structure PlainSpec (S : List SFrame) : Prop where
  noModuleEllipsis : ∀ p ∈ S, p.isEllipsis = true → p.isModule = false
  lastOrdinary : ∀ p, S.getLast? = some p → p.isEllipsis = false

theorem PlainSpec.tail {p : SFrame} {S : List SFrame} (h : PlainSpec (p :: S)) : PlainSpec S := by
  refine ⟨fun q hq => h.1 q (by simp [hq]), fun q hq => h.2 q ?_⟩
  cases S with
  | nil => simp at hq
  | cons a b => rw [List.getLast?_cons_cons]; exact hq

/-- No top-frame leniency (i#1189, drmemory/report.c:1082-1102) applies: the top frame is not a
`replace_*` frame of the tool when replacing, no suppression line is one when wrapping. -/
def NoReplace (cfg : Cfg) (S : List SFrame) (F : List Frame) : Prop :=
  (∀ f, F.head? = some f → skipTop cfg f = false) ∧ (∀ p ∈ S, skipSupp cfg p = false)

theorem describes_nil_of_plain {cfg : Cfg} {S : List SFrame} (h : PlainSpec S)
    (hd : Describes cfg S []) : S = [] := by
  induction S with
  | nil => rfl
  | cons p S ih =>
    exfalso
    cases hp : p.isEllipsis with
    | false =>
      rw [describes_frame_iff hp] at hd
      obtain ⟨_, _, e, _⟩ := hd; cases e
    | true =>
      rw [describes_plain_iff hp (h.1 p (by simp) hp)] at hd
      obtain ⟨k, _, hd⟩ := hd
      rw [List.drop_nil] at hd
      have := ih h.tail hd
      subst this
      have := h.2 p (by simp)
      rw [hp] at this; cases this

theorem frameMatch_plain {cfg : Cfg} {p : SFrame} (f : Frame) (hp : p.isEllipsis = true)
    (hm : p.isModule = false) : frameMatch cfg f p = true := by
  simp [frameMatch, hp, hm]

/-! ## C05 -/

/-- **C05 (completeness).**  For every specification with plain ellipses: if it describes a prefix of
the callstack, the matcher says so (no described error is missed). -/
theorem C05_complete_plain_partial (cfg : Cfg) (S : List SFrame) (F : List Frame) (hS : PlainSpec S)
    (h : Describes cfg S F) : Returns cfg S F true := by
  obtain ⟨b, hb, rfl⟩ := returns_post cfg S F
    (fun s => PlainSpec s.supp ∧
      (∀ l e, s.last = some (l, e) → e.isModule = false) ∧
      ∃ p, s.i ≤ p ∧ p ≤ F.length ∧ Describes cfg s.supp (F.drop p) ∧ (s.last = none → s.i = p))
    (· = true)
    ⟨hS, by simp, 0, by simp, by simp, by simpa using h, by simp⟩
    (by
      rintro s s' ⟨hi, hli⟩ ⟨hps, hlast, p, hip, hpF, hd, hnone⟩ hs
      unfold step at hs
      cases hf : F[s.i]? with
      | none => simp [hf] at hs
      | some f =>
        have hiF := lt_of_getElem? hf
        have hfi : F[s.i] = f := by rw [List.getElem?_eq_getElem hiF] at hf; exact Option.some.inj hf
        simp only [hf] at hs
        cases hsp : s.supp with
        | nil => simp [hsp] at hs
        | cons q rest =>
          rw [hsp] at hd hps
          simp only [hsp] at hs
          have key : q.isEllipsis = false → s.i = p → frameMatch cfg f q = true := by
            intro hq hip'
            rw [describes_frame_iff hq] at hd
            obtain ⟨f', F', e, h1, _⟩ := hd
            rw [← hip', List.drop_eq_getElem_cons hiF, hfi] at e
            injection e with e1 _
            rw [e1]; exact h1
          split at hs
          · split at hs
            · rename_i hm hq
              injection hs with hs; subst hs
              rw [describes_plain_iff hq (hps.1 q (by simp) hq)] at hd
              obtain ⟨k, hk, hd⟩ := hd
              rw [List.drop_drop] at hd
              rw [List.length_drop] at hk
              refine ⟨hps.tail, ?_, p + k, by simp; omega, by omega, hd, by simp⟩
              intro l e he; simp at he; rw [← he.2]; exact hps.1 q (by simp) hq
            · rename_i hm hq
              have hq : q.isEllipsis = false := by simpa using hq
              injection hs with hs; subst hs
              rw [describes_frame_iff hq] at hd
              obtain ⟨f', F', e, h1, hd⟩ := hd
              have hpl : p < F.length := by
                apply Decidable.byContradiction; intro hge
                rw [List.drop_eq_nil_of_le (by omega)] at e; cases e
              rw [List.drop_eq_getElem_cons hpl] at e
              injection e with _ e2
              refine ⟨hps.tail, hlast, p + 1, by simp; omega, by omega, by rw [e2]; exact hd, ?_⟩
              intro hn; have := hnone hn; simp; omega
          · rename_i hm
            have hq : q.isEllipsis = false := by
              cases hq : q.isEllipsis with
              | false => rfl
              | true => exact absurd (frameMatch_plain f hq (hps.1 q (by simp) hq)) hm
            cases hl : s.last with
            | none => exact absurd (key hq (hnone hl)) hm
            | some le =>
              obtain ⟨l, e⟩ := le
              have hem := hlast l e hl
              simp only [hl, hem] at hs
              simp at hs
              subst hs
              have hlt : s.i ≠ p := fun e => hm (key hq e)
              have := hli l e hl
              refine ⟨hps, ?_, p, by simp; omega, hpF, hd, by simp⟩
              intro l' e' he; simp at he; rw [← he.2]; exact hem)
    (by
      rintro s b ⟨hi, hli⟩ ⟨hps, hlast, p, hip, hpF, hd, hnone⟩ hs
      unfold step at hs
      cases hf : F[s.i]? with
      | none =>
        simp only [hf] at hs
        injection hs with hs
        rw [List.getElem?_eq_none_iff] at hf
        rw [List.drop_eq_nil_of_le (by omega)] at hd
        rw [← hs, describes_nil_of_plain hps hd]; rfl
      | some f =>
        have hiF := lt_of_getElem? hf
        have hfi : F[s.i] = f := by rw [List.getElem?_eq_getElem hiF] at hf; exact Option.some.inj hf
        simp only [hf] at hs
        cases hsp : s.supp with
        | nil => simp only [hsp] at hs; injection hs with hs; exact hs.symm
        | cons q rest =>
          rw [hsp] at hd hps
          simp only [hsp] at hs
          split at hs
          · split at hs <;> simp at hs
          · rename_i hm
            have hq : q.isEllipsis = false := by
              cases hq : q.isEllipsis with
              | false => rfl
              | true => exact absurd (frameMatch_plain f hq (hps.1 q (by simp) hq)) hm
            cases hl : s.last with
            | none =>
              exfalso
              rw [describes_frame_iff hq] at hd
              obtain ⟨f', F', e, h1, _⟩ := hd
              rw [← hnone hl, List.drop_eq_getElem_cons hiF, hfi] at e
              injection e with e1 _
              rw [e1] at hm; exact hm h1
            | some le =>
              obtain ⟨l, e⟩ := le
              have hem := hlast l e hl
              simp [hl, hem] at hs)
  exact hb

/-- Every ellipsis is plain, is followed by exactly one ordinary line, and then by another ellipsis
or the end (so `a b ... c ... d` is allowed, `... a b` is not). -/
inductive Simple : List SFrame → Prop
  | nil : Simple []
  | ordinary {p S} : p.isEllipsis = false → Simple S → Simple (p :: S)
  | block {e p S} : e.isEllipsis = true → e.isModule = false → p.isEllipsis = false →
      (∀ q, S.head? = some q → q.isEllipsis = true) → Simple S → Simple (e :: p :: S)

theorem Simple.plainSpec {S : List SFrame} (h : Simple S) : PlainSpec S := by
  induction h with
  | nil => exact ⟨by simp, by simp⟩
  | @ordinary p S hp hS ih =>
    refine ⟨?_, ?_⟩
    · intro q hq hqe
      rcases List.mem_cons.mp hq with e | e
      · rw [e, hp] at hqe; cases hqe
      · exact ih.1 q e hqe
    · intro q hq
      cases S with
      | nil => simp at hq; rw [← hq]; exact hp
      | cons a b => rw [List.getLast?_cons_cons] at hq; exact ih.2 q hq
  | @block e p S he hem hp _ hS ih =>
    refine ⟨?_, ?_⟩
    · intro q hq hqe
      rcases List.mem_cons.mp hq with e' | e'
      · rw [e']; exact hem
      · rcases List.mem_cons.mp e' with e'' | e''
        · rw [e'', hp] at hqe; cases hqe
        · exact ih.1 q e'' hqe
    · intro q hq
      rw [List.getLast?_cons_cons] at hq
      cases S with
      | nil => simp at hq; rw [← hq]; exact hp
      | cons a b => rw [List.getLast?_cons_cons] at hq; exact ih.2 q hq

/-- Where the loop is inside a `Simple` specification. -/
inductive Phase (cfg : Cfg) (S : List SFrame) (F : List Frame) : St → Prop
  /-- before the first ellipsis, or right after the ordinary line that closes an ellipsis -/
  | atLine {s : St} : Simple s.supp →
      (s.last ≠ none → ∀ q, s.supp.head? = some q → q.isEllipsis = true) →
      (Describes cfg s.supp (F.drop s.i) → Describes cfg S F) → Phase cfg S F s
  /-- an ellipsis is open, the ordinary line `p` is being searched -/
  | inEllipsis {s : St} {e p : SFrame} {R : List SFrame} : s.supp = p :: R → s.last = some (s.i, e) →
      e.isEllipsis = true → e.isModule = false → p.isEllipsis = false → Simple R →
      (∀ q, R.head? = some q → q.isEllipsis = true) →
      (Describes cfg (e :: p :: R) (F.drop s.i) → Describes cfg S F) → Phase cfg S F s

theorem NoReplace.not_skip {cfg : Cfg} {S : List SFrame} {F : List Frame} (h : NoReplace cfg S F)
    {f : Frame} (hf : F[0]? = some f) : skipTop cfg f = false := by
  apply h.1; rwa [List.head?_eq_getElem?]

/-- **C05 (soundness).**  For `Simple` specifications, if the matcher answers true the specification
describes a prefix of the callstack (no other error is suppressed). -/
theorem C05_sound_simple_partial (cfg : Cfg) (S : List SFrame) (F : List Frame) (hS : Simple S)
    (hR : NoReplace cfg S F) (h : Returns cfg S F true) : Describes cfg S F := by
  obtain ⟨b, hb, hpost⟩ := returns_post cfg S F
    (fun s => Phase cfg S F s ∧ (∀ p ∈ s.supp, p ∈ S))
    (fun b => b = true → Describes cfg S F)
    ⟨.atLine hS (by simp) (by simp), by simp⟩
    (by
      rintro s s' ⟨hi, hli⟩ ⟨hph, hsub⟩ hs
      unfold step at hs
      cases hf : F[s.i]? with
      | none => simp [hf] at hs
      | some f =>
        have hiF := lt_of_getElem? hf
        have hfi : F[s.i] = f := by rw [List.getElem?_eq_getElem hiF] at hf; exact Option.some.inj hf
        have hdrop : F.drop s.i = f :: F.drop (s.i + 1) := by
          rw [List.drop_eq_getElem_cons hiF, hfi]
        simp only [hf] at hs
        cases hph with
        | atLine hsim hopen himp =>
          cases hsp : s.supp with
          | nil => simp [hsp] at hs
          | cons q rest =>
            simp only [hsp] at hs
            rw [hsp] at hsim himp hsub
            have hsub' : ∀ p ∈ rest, p ∈ S := fun p hp => hsub p (by simp [hp])
            cases hsim with
            | ordinary hq hrest =>
              have hnone : s.last = none := by
                cases hl : s.last with
                | none => rfl
                | some _ =>
                  have := hopen (by simp [hl]) q (by simp [hsp])
                  rw [hq] at this; cases this
              split at hs
              · rename_i hm
                rw [if_neg (by simp [hq])] at hs
                injection hs with hs; subst hs
                refine ⟨.atLine hrest (by simp [hnone]) ?_, hsub'⟩
                intro hd
                apply himp
                rw [hdrop]
                exact .frame hq ((frameMatch_iff cfg _ _ hq).1 hm) hd
              · simp only [hnone] at hs
                have h1 : ¬ (s.i = 0 ∧ skipTop cfg f = true) := by
                  rintro ⟨h0, h1⟩
                  rw [h0] at hf
                  rw [hR.not_skip hf] at h1; cases h1
                have h2 : ¬ (s.i = 0 ∧ skipSupp cfg q = true) := by
                  rintro ⟨_, h1⟩
                  rw [hR.2 q (hsub q (by simp))] at h1; cases h1
                rw [if_neg h1, if_neg h2] at hs
                simp at hs
            | @block _ p R he hem hp hhead hR' =>
              rw [if_pos (frameMatch_plain f he hem), if_pos he] at hs
              injection hs with hs; subst hs
              exact ⟨.inEllipsis rfl rfl he hem hp hR' hhead himp, hsub'⟩
        | @inEllipsis e p R hsp hlast he hem hp hR' hhead himp =>
          simp only [hsp] at hs
          rw [hsp] at hsub
          split at hs
          · rename_i hm
            rw [if_neg (by simp [hp])] at hs
            injection hs with hs; subst hs
            refine ⟨.atLine hR' (fun _ => hhead) ?_, fun q hq => hsub q (by simp [hq])⟩
            intro hd
            apply himp
            refine .plain 0 he hem (by simp) ?_
            rw [List.drop_zero, hdrop]
            exact .frame hp ((frameMatch_iff cfg _ _ hp).1 hm) hd
          · simp only [hlast, hem, Bool.not_false, Bool.true_or, if_true] at hs
            injection hs with hs; subst hs
            refine ⟨.inEllipsis rfl rfl he hem hp hR' hhead ?_, hsub⟩
            intro hd
            apply himp
            rw [describes_plain_iff he hem] at hd ⊢
            obtain ⟨k, hk, hd⟩ := hd
            refine ⟨k + 1, ?_, ?_⟩
            · rw [List.length_drop] at hk ⊢; simp only at hk; omega
            · rw [List.drop_drop] at hd ⊢
              have e1 : s.i + (k + 1) = s.i + 1 + k := by omega
              rw [e1]; exact hd)
    (by
      rintro s b ⟨hi, hli⟩ ⟨hph, hsub⟩ hs hbt
      subst hbt
      unfold step at hs
      cases hf : F[s.i]? with
      | none =>
        simp only [hf] at hs
        injection hs with hs
        rw [List.isEmpty_iff] at hs
        cases hph with
        | atLine hsim hopen himp => exact himp (by rw [hs]; exact .nil _)
        | inEllipsis hsp _ _ _ _ _ _ _ => rw [hs] at hsp; cases hsp
      | some f =>
        simp only [hf] at hs
        cases hph with
        | atLine hsim hopen himp =>
          cases hsp : s.supp with
          | nil => exact himp (by rw [hsp]; exact .nil _)
          | cons q rest =>
            exfalso
            simp only [hsp] at hs
            repeat' split at hs
            all_goals simp at hs
            all_goals (split at hs <;> simp at hs)
        | @inEllipsis e p R hsp hlast he hem hp hR' hhead himp =>
          exfalso
          simp only [hsp, hlast, hem] at hs
          repeat' split at hs
          all_goals simp at hs)
  exact hpost (Runs.unique h hb).symm

/-- **C05 (partial).**  For every `Simple` specification (in particular every ellipsis-free one) the
matcher decides exactly whether it describes a prefix of the callstack.
Missing with respect to the full claim: specifications with two or more consecutive ordinary lines
after an ellipsis, and `module!...` lines — for those the claim is false, see the witnesses below —
and stacks to which the `replace_*` leniency of i#1189 applies. -/
theorem C05_exact_simple_partial (cfg : Cfg) (S : List SFrame) (F : List Frame) (hS : Simple S)
    (hR : NoReplace cfg S F) : ∃ b, Returns cfg S F b ∧ (b = true ↔ Describes cfg S F) := by
  obtain ⟨b, hb⟩ := returns_exists cfg S F
  refine ⟨b, hb, ?_, ?_⟩
  · rintro rfl; exact C05_sound_simple_partial cfg S F hS hR hb
  · intro h
    exact Runs.unique hb (C05_complete_plain_partial cfg S F hS.plainSpec h)

/-! ### Examples and violations -/

def exCfg : Cfg := ⟨false, true, [108, 105, 98]⟩
/-- module frame `m!f` with one-letter names -/
def fr (m f : UInt8) : Frame := ⟨true, [m], [48], [f]⟩
/-- suppression line `m!f` -/
def sup (m f : UInt8) : SFrame := { isModule := true, modname := some [m], func := some [f] }
/-- `...` -/
def ell : SFrame := { isEllipsis := true }
/-- `m!...` -/
def mell (m : UInt8) : SFrame := { isEllipsis := true, isModule := true, modname := some [m] }
/-- letters: m=109 x=120 a=97 b=98 c=99, `*`=42 -/
abbrev cm : UInt8 := 109
abbrev cx : UInt8 := 120
abbrev ca : UInt8 := 97
abbrev cb : UInt8 := 98

-- the hypotheses of the theorems are met by "m!a ... m!b" on the stack m!a, x!x, m!b
example : Simple [sup cm ca, ell, sup cm cb] :=
  .ordinary rfl (.block rfl rfl rfl (by simp) .nil)
example : NoReplace exCfg [sup cm ca, ell, sup cm cb] [fr cm ca, fr cx cx, fr cm cb] := by
  refine ⟨?_, ?_⟩ <;> decide
example : run exCfg [sup cm ca, ell, sup cm cb] [fr cm ca, fr cx cx, fr cm cb] 50 = some true := by
  decide

theorem run_returns {cfg : Cfg} {S : List SFrame} {F : List Frame} {n : Nat} {b : Bool}
    (h : run cfg S F n = some b) : Returns cfg S F b := ⟨n, h⟩

/-- **C05, violation 1 (over-suppression).**  `... m!a m!b` suppresses the stack m!a, x!x, m!b although
a and b are not consecutive in it: after a mismatch the code resumes the stack position but not the
suppression line (drmemory/report.c:1079-1081). -/
theorem C05_over_suppression :
    ∃ (S : List SFrame) (F : List Frame), PlainSpec S ∧ NoReplace exCfg S F ∧
      Returns exCfg S F true ∧ ¬ Describes exCfg S F := by
  refine ⟨[ell, sup cm ca, sup cm cb], [fr cm ca, fr cx cx, fr cm cb], ⟨by decide, by decide⟩,
    ⟨by decide, by decide⟩, run_returns (n := 50) (by decide), ?_⟩
  rw [describes_plain_iff rfl rfl]
  rintro ⟨k, hk, hd⟩
  have hk' : k = 0 ∨ k = 1 ∨ k = 2 ∨ k = 3 := by simp at hk; omega
  rw [describes_frame_iff rfl] at hd
  obtain ⟨f, F', e, hm, hd⟩ := hd
  rw [describes_frame_iff rfl] at hd
  obtain ⟨f2, F2, e2, hm2, hd⟩ := hd
  subst e2
  rcases hk' with rfl | rfl | rfl | rfl <;> simp at e
  · obtain ⟨rfl, rfl, rfl⟩ := e; revert hm2; decide
  · obtain ⟨rfl, rfl, rfl⟩ := e; revert hm; decide

/-- **C05, violation 2.**  `m!... m!a` suppresses the one-frame stack m!a although the documentation
requires `module!...` to match at least one frame (the frame that opens it is not consumed,
drmemory/report.c:1070). -/
theorem C05_module_ellipsis_matches_zero :
    ∃ (S : List SFrame) (F : List Frame), NoReplace exCfg S F ∧
      Returns exCfg S F true ∧ ¬ Describes exCfg S F := by
  refine ⟨[mell cm, sup cm ca], [fr cm ca],
    ⟨by decide, by decide⟩, run_returns (n := 50) (by decide), ?_⟩
  intro h
  cases h with
  | frame h1 _ _ => cases h1
  | plain k _ h1 _ _ => cases h1
  | module k _ _ h1 h2 _ hd =>
    simp at h2
    have : k = 1 := by omega
    subst this
    rw [describes_frame_iff rfl] at hd
    obtain ⟨_, _, e, _⟩ := hd
    simp at e

/-- **C05, violation 3 (missed suppression).**  `m!... *!a *!b` does not suppress m!a, m!c, x!a, x!b
although it describes it: on a mismatch the module test uses the mismatching frame instead of the
frame about to be absorbed (drmemory/report.c:1076). -/
theorem C05_missed_suppression :
    ∃ (S : List SFrame) (F : List Frame), NoReplace exCfg S F ∧
      Returns exCfg S F false ∧ Describes exCfg S F := by
  refine ⟨[mell cm, sup 42 ca, sup 42 cb], [fr cm ca, fr cx ca, fr cx cb],
    ⟨by decide, by decide⟩, run_returns (n := 50) (by decide), ?_⟩
  refine .module 1 rfl rfl (by omega) (by simp) ?_ ?_
  · intro f hf
    simp at hf
    subst hf
    exact (modMatch_iff _ _ _).1 (by decide)
  · exact .frame rfl ((frameMatch_iff _ _ _ rfl).1 (by decide))
      (.frame rfl ((frameMatch_iff _ _ _ rfl).1 (by decide)) (.nil _))

/-! ## C07 -/

theorem helper_spec (m : Spec → Bool) (isLeak : Bool) (e : Err) (l : List Spec) :
    (helper m isLeak e l).2 = l.findIdx? m ∧
    (∀ k, (helper m isLeak e l).2 = some k → ∃ sp, l[k]? = some sp ∧
      (helper m isLeak e l).1 = l.set k { sp with
        countUsed := sp.countUsed + 1,
        bytesLeaked := if isLeak then sp.bytesLeaked + e.bytesLeaked else sp.bytesLeaked }) ∧
    ((helper m isLeak e l).2 = none → (helper m isLeak e l).1 = l) := by
  induction l with
  | nil => simp [helper]
  | cons sp l ih =>
    obtain ⟨h1, h2, h3⟩ := ih
    unfold helper
    by_cases hm : m sp
    · simp [hm, List.findIdx?_cons]
    · simp only [hm]
      refine ⟨by simp [List.findIdx?_cons, hm, h1], ?_, ?_⟩
      · intro k hk
        simp at hk
        obtain ⟨k', hk', rfl⟩ := hk
        obtain ⟨sp', h4, h5⟩ := h2 k' hk'
        exact ⟨sp', by simpa using h4, by simp [h5]⟩
      · intro hn
        simp at hn
        simp [h3 hn]

/-- The types whose suppressions apply to an error of type `t`. -/
def applicable (t : Nat) : List Nat := if typeIsLeak t && t != errLeak then [t, errLeak] else [t]

/-- **C07 (decision).**  An error is suppressed iff a suppression of an applicable type (its own type,
or LEAK for the leak subtypes) matches it. -/
theorem C07_suppressed_iff (m : Spec → Bool) (e : Err) (t : Nat) (lists : Nat → List Spec) :
    ((onList m e t lists).2.isSome = true ↔ ∃ u ∈ applicable t, ∃ sp ∈ lists u, m sp = true) := by
  obtain ⟨h1, _, _⟩ := helper_spec m (typeIsLeak t) e (lists t)
  obtain ⟨h1', _, _⟩ := helper_spec m true e (lists errLeak)
  have hsome : ∀ l : List Spec, (∃ sp ∈ l, m sp = true) ↔ (l.findIdx? m).isSome = true := by
    intro l; rw [List.findIdx?_isSome, List.any_eq_true]
  unfold onList applicable
  cases hr : (helper m (typeIsLeak t) e (lists t)).2 with
  | some k =>
    simp only [hr]
    have : ∃ sp ∈ lists t, m sp = true := (hsome _).2 (by rw [← h1, hr]; rfl)
    split <;> simp [this]
  | none =>
    simp only [hr]
    have hno : ¬ ∃ sp ∈ lists t, m sp = true := by rw [hsome, ← h1, hr]; simp
    split
    · cases hr' : (helper m true e (lists errLeak)).2 with
      | some k =>
        simp only [hr']
        have : ∃ sp ∈ lists errLeak, m sp = true := (hsome _).2 (by rw [← h1', hr']; rfl)
        simp [this]
      | none =>
        simp only [hr']
        have hno' : ¬ ∃ sp ∈ lists errLeak, m sp = true := by rw [hsome, ← h1', hr']; simp
        simp only [List.mem_cons, List.not_mem_nil, or_false, exists_eq_or_imp, exists_eq_left]
        simp [hno, hno']
    · simpa using hno

/-- **C07 (effect).**  Exactly the first matching suppression of the chosen list has its use count
increased by one (and its leaked bytes by the error's bytes when it is a leak); nothing else in any
list changes, and if nothing matches nothing changes. -/
theorem C07_effect (m : Spec → Bool) (e : Err) (t : Nat) (lists : Nat → List Spec) :
    (∀ u k, (onList m e t lists).2 = some (u, k) →
      u ∈ applicable t ∧ (lists u).findIdx? m = some k ∧
      (u ≠ t → ∀ sp ∈ lists t, m sp = false) ∧
      (∃ sp, (lists u)[k]? = some sp ∧ (onList m e t lists).1 u = (lists u).set k { sp with
        countUsed := sp.countUsed + 1,
        bytesLeaked := if typeIsLeak t then sp.bytesLeaked + e.bytesLeaked else sp.bytesLeaked }) ∧
      ∀ v, v ≠ u → (onList m e t lists).1 v = lists v) ∧
    ((onList m e t lists).2 = none → (onList m e t lists).1 = lists) := by
  obtain ⟨h1, h2, h3⟩ := helper_spec m (typeIsLeak t) e (lists t)
  obtain ⟨h1', h2', h3'⟩ := helper_spec m true e (lists errLeak)
  unfold onList applicable
  cases hr : (helper m (typeIsLeak t) e (lists t)).2 with
  | some k =>
    simp only [hr]
    refine ⟨?_, by simp⟩
    intro u k' hu
    simp at hu
    obtain ⟨rfl, rfl⟩ := hu
    obtain ⟨sp, h4, h5⟩ := h2 k hr
    refine ⟨by split <;> simp, by rw [← h1, hr], by simp, ⟨sp, h4, by simpa using h5⟩, ?_⟩
    intro v hv; simp [hv]
  | none =>
    simp only [hr]
    have hno : ∀ sp ∈ lists t, m sp = false := by
      intro sp hsp
      rw [hr] at h1
      have := h1.symm
      rw [List.findIdx?_eq_none_iff] at this
      simpa using this sp hsp
    split
    · rename_i hleak
      cases hr' : (helper m true e (lists errLeak)).2 with
      | some k =>
        simp only [hr']
        refine ⟨?_, by simp⟩
        intro u k' hu
        simp at hu
        obtain ⟨rfl, rfl⟩ := hu
        obtain ⟨sp, h4, h5⟩ := h2' k hr'
        simp at hleak
        refine ⟨by simp, by rw [← h1', hr'], fun _ => hno, ⟨sp, h4, by simpa [hleak.1] using h5⟩, ?_⟩
        intro v hv; simp [hv]
      | none => simp only [hr']; exact ⟨by simp, fun _ => trivial⟩
    · exact ⟨by simp, fun _ => rfl⟩

/-- **C07 (monotonicity).**  Loading more suppressions never un-suppresses an error. -/
theorem C07_monotone (m : Spec → Bool) (e : Err) (t : Nat) (lists lists' : Nat → List Spec)
    (hsub : ∀ u, ∀ sp ∈ lists u, sp ∈ lists' u)
    (h : (onList m e t lists).2.isSome = true) : (onList m e t lists').2.isSome = true := by
  rw [C07_suppressed_iff] at h ⊢
  obtain ⟨u, hu, sp, hsp, hm⟩ := h
  exact ⟨u, hu, sp, hsub u sp hsp, hm⟩

-- a POSSIBLE LEAK (5) is suppressed by a LEAK (4) suppression, a WARNING (3) is not
example : (onList (fun _ => true) ⟨[], [], 8⟩ 5 (fun u => if u = 4 then [⟨[], none, 0, 0⟩] else [])).2
    = some (4, 0) := by decide
example : (onList (fun _ => true) ⟨[], [], 8⟩ 3 (fun u => if u = 4 then [⟨[], none, 0, 0⟩] else [])).2
    = none := by decide

end Verif.Suppress
