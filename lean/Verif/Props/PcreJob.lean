import Verif.Model.PcreJob
/-! # Property C148: search and replace returns its memory -/
open PcreJob

namespace PcreJob

/-- The blocks of a compiled replacement. -/
def substBlocks : Option (Nat × Nat) → List Nat
  | none => []
  | some (s, t) => [s, t]

/-- The blocks of a job. -/
def Job.blocks (j : Job) : List Nat := j.self :: (j.pattern.toList ++ j.hints.toList ++ substBlocks j.substitute)

theorem free_perm {h : H} {p : Nat} {rest : List Nat} (hp : h.live.Perm (p :: rest)) :
    ∃ l, free h p = some { h with live := l } ∧ l.Perm rest := by
  refine ⟨h.live.erase p, ?_, ?_⟩
  · have : p ∈ h.live := hp.mem_iff.mpr List.mem_cons_self
    simp [free, this]
  · have := hp.erase p
    rwa [List.erase_cons_head] at this

theorem freeJob_ok {h : H} {j : Job} {L : List Nat} (hp : h.live.Perm (j.blocks ++ L)) :
    ∃ h', freeJob h j = some h' ∧ h'.live.Perm L := by
  obtain ⟨self, pat, hin, sub⟩ := j
  have step : ∀ (h : H) (o : Option Nat) (A B : List Nat), h.live.Perm (A ++ o.toList ++ B) → ∃ l, freeOpt h o = some { h with live := l } ∧ l.Perm (A ++ B) := by
    intro h o A B hp
    cases o with
    | none => exact ⟨h.live, rfl, by simpa using hp⟩
    | some p =>
      refine free_perm (hp.trans ?_)
      simp
  have h1 : h.live.Perm ([self] ++ pat.toList ++ (hin.toList ++ substBlocks sub ++ L)) := by
    simpa [Job.blocks] using hp
  obtain ⟨l1, e1, p1⟩ := step h pat _ _ h1
  obtain ⟨l2, e2, p2⟩ := step { h with live := l1 } hin [self] (substBlocks sub ++ L) (by simpa using p1)
  cases sub with
  | none =>
    obtain ⟨l3, e3, p3⟩ := free_perm (h := { h with live := l2 }) (p := self) (rest := L) (by simpa [substBlocks] using p2)
    exact ⟨_, by simp only [freeJob, e1, e2, freeSubst, bind, Option.bind]; exact e3, p3⟩
  | some st =>
    obtain ⟨s, t⟩ := st
    obtain ⟨l3, e3, p3⟩ := free_perm (h := { h with live := l2 }) (p := t) (rest := s :: self :: L) (p2.trans (by
      refine List.perm_iff_count.mpr fun x => ?_
      simp only [substBlocks, List.count_cons, List.count_append, List.count_nil, List.cons_append, List.nil_append]; omega))
    obtain ⟨l4, e4, p4⟩ := free_perm (h := { h with live := l3 }) (p := s) (rest := self :: L) p3
    obtain ⟨l5, e5, p5⟩ := free_perm (h := { h with live := l4 }) (p := self) (rest := L) p4
    exact ⟨_, by simp only [freeJob, e1, e2, freeSubst, e3, e4, bind, Option.bind]; exact e5, p5⟩

theorem malloc_cases (h : H) : (∃ pl, malloc h = ({ h with plan := pl }, none)) ∨
    (∃ pl, malloc h = ({ live := h.next :: h.live, next := h.next + 1, plan := pl }, some h.next)) := by
  unfold malloc
  split
  · exact Or.inl ⟨_, rfl⟩
  · exact Or.inr ⟨_, rfl⟩


theorem compileRest_ok {h : H} {j : Job} {L : List Nat} (lib : Lib) (hj : j.substitute = none) (hp : h.live.Perm (j.blocks ++ L)) :
    ∃ h' r err, compileRest h lib j = some (h', r, err) ∧
      (match r with | none => h'.live.Perm L ∧ err < 0 | some j' => h'.live.Perm (j'.blocks ++ L)) := by
  unfold compileRest
  by_cases hf : lib.fullinfo < 0
  · obtain ⟨h', e, q⟩ := freeJob_ok hp
    exact ⟨h', none, lib.fullinfo, by simp [hf, e], q, hf⟩
  · simp only [hf, if_false, compileReplacement]
    rcases malloc_cases h with ⟨pl, e⟩ | ⟨pl, e⟩
    · obtain ⟨h', e', q⟩ := freeJob_ok (h := { h with plan := pl }) hp
      exact ⟨h', none, errNomem, by simp [e, e'], q, by decide⟩
    · rcases malloc_cases { live := h.next :: h.live, next := h.next + 1, plan := pl } with ⟨pl2, e2⟩ | ⟨pl2, e2⟩
      · obtain ⟨l, e3, q3⟩ := free_perm (h := { live := h.next :: h.live, next := h.next + 1, plan := pl2 }) (p := h.next) (List.Perm.refl _)
        obtain ⟨h', e', q⟩ := freeJob_ok (h := { live := l, next := h.next + 1, plan := pl2 }) (q3.trans hp)
        exact ⟨h', none, errNomem, by simp [e, e2, e3, e'], q, by decide⟩
      · refine ⟨_, some { j with substitute := some (h.next, h.next + 1) }, _, by simp [e, e2]; exact ⟨rfl, rfl⟩, ?_⟩
        refine List.perm_iff_count.mpr fun x => ?_
        have := hp.count_eq x
        simp only [Job.blocks, hj, substBlocks, List.count_cons, List.count_append, List.count_nil, List.cons_append, List.nil_append] at this ⊢
        omega

theorem compile_ok (h : H) (lib : Lib) : ∃ h' r err, compile h lib = some (h', r, err) ∧
      (match r with | none => h'.live.Perm h.live | some j' => h'.live.Perm (j'.blocks ++ h.live)) := by
  unfold compile
  rcases malloc_cases h with ⟨pl, e⟩ | ⟨pl, e⟩
  · exact ⟨{ h with plan := pl }, none, errNomem, by simp [e], List.Perm.refl _⟩
  · by_cases hc : lib.compiles = false
    · obtain ⟨h', e', q⟩ := freeJob_ok (h := { live := h.next :: h.live, next := h.next + 1, plan := pl }) (j := ⟨h.next, none, none, none⟩) (L := h.live)
        (by simp [Job.blocks, substBlocks])
      exact ⟨h', none, lib.erroffset, by simp [e, hc, e'], q⟩
    · by_cases hs : lib.studyFails = true
      · obtain ⟨h', e', q⟩ := freeJob_ok (h := { live := (h.next + 1) :: h.next :: h.live, next := h.next + 1 + 1, plan := pl }) (j := ⟨h.next, some (h.next + 1), none, none⟩) (L := h.live)
          (by simpa [Job.blocks, substBlocks] using List.Perm.swap _ _ _)
        exact ⟨h', none, errStudy, by simp [e, hc, hs, grant, e'], q⟩
      · by_cases hg : lib.studyGivesHints = true
        · obtain ⟨h', r, err, e', q⟩ := compileRest_ok (h := { live := (h.next + 1 + 1) :: (h.next + 1) :: h.next :: h.live, next := h.next + 1 + 1 + 1, plan := pl })
            (j := ⟨h.next, some (h.next + 1), some (h.next + 1 + 1), none⟩) (L := h.live) lib rfl (by
              refine List.perm_iff_count.mpr fun x => ?_
              simp only [Job.blocks, substBlocks, Option.toList, List.count_cons, List.count_append, List.count_nil, List.cons_append, List.nil_append]
              omega)
          refine ⟨h', r, err, by simp [e, hc, hs, hg, grant, e'], ?_⟩
          cases r with
          | none => exact q.1
          | some j => exact q
        · obtain ⟨h', r, err, e', q⟩ := compileRest_ok (h := { live := (h.next + 1) :: h.next :: h.live, next := h.next + 1 + 1, plan := pl })
            (j := ⟨h.next, some (h.next + 1), none, none⟩) (L := h.live) lib rfl
              (by simpa [Job.blocks, substBlocks] using List.Perm.swap _ _ _)
          refine ⟨h', r, err, by simp [e, hc, hs, hg, grant, e'], ?_⟩
          cases r with
          | none => exact q.1
          | some j => exact q

theorem matchLoop_ok : ∀ (n : Nat) (h : H) (b cur max : Nat) (L : List Nat), h.live.Perm (b :: L) →
    ∃ h' r, matchLoop h b cur max n = some (h', r) ∧ (match r with | none => h'.live.Perm L | some b' => h'.live.Perm (b' :: L)) := by
  intro n
  induction n with
  | zero => intro h b cur max L hp; exact ⟨h, some b, rfl, hp⟩
  | succ n ih =>
    intro h b cur max L hp
    simp only [matchLoop]
    by_cases hc : cur + 1 ≥ max
    · simp only [hc, if_true, realloc]
      rcases malloc_cases h with ⟨pl, e⟩ | ⟨pl, e⟩
      · obtain ⟨l, e1, q⟩ := free_perm (h := { h with plan := pl }) hp
        have hb : b ∈ h.live := hp.mem_iff.mpr List.mem_cons_self
        exact ⟨_, none, by simp [e, hb, e1]; rfl, q⟩
      · obtain ⟨l, e1, q⟩ := free_perm (h := { live := h.next :: h.live, next := h.next + 1, plan := pl }) (p := b) (rest := h.next :: L)
          ((hp.cons _).trans (List.Perm.swap _ _ _))
        obtain ⟨h', r, e2, q2⟩ := ih { live := l, next := h.next + 1, plan := pl } h.next (cur + 1) (max * 16 / 10) L q
        exact ⟨h', r, by simp [e, e1, e2], q2⟩
    · simp only [hc, if_false]
      exact ih h b (cur + 1) max L hp

theorem execute_ok (h : H) (n : Nat) (last : Int) : ∃ h' err r, execute h n last = some (h', err, r) ∧
    (match r with | none => h'.live.Perm h.live ∧ err < 0 | some b => h'.live.Perm (b :: h.live) ∧ err = n) := by
  unfold execute
  rcases malloc_cases h with ⟨pl, e⟩ | ⟨pl, e⟩
  · exact ⟨{ h with plan := pl }, errNomem, none, by simp [e], List.Perm.refl _, by decide⟩
  · obtain ⟨h1, r, e1, q1⟩ := matchLoop_ok n { live := h.next :: h.live, next := h.next + 1, plan := pl } h.next 0 40 h.live (List.Perm.refl _)
    cases r with
    | none => exact ⟨h1, errNomem, none, by simp [e, e1], q1, by decide⟩
    | some m =>
      by_cases hl : last < -1
      · obtain ⟨l, e2, q2⟩ := free_perm (h := h1) q1
        exact ⟨_, last, none, by simp [e, e1, hl, e2]; rfl, q2, by omega⟩
      · rcases malloc_cases h1 with ⟨pl2, e3⟩ | ⟨pl2, e3⟩
        · obtain ⟨l, e2, q2⟩ := free_perm (h := { h1 with plan := pl2 }) q1
          exact ⟨_, errNomem, none, by simp [e, e1, hl, e3, e2]; rfl, q2, by decide⟩
        · obtain ⟨l, e2, q2⟩ := free_perm (h := { live := h1.next :: h1.live, next := h1.next + 1, plan := pl2 }) (p := m) (rest := h1.next :: h.live)
            ((q1.cons _).trans (List.Perm.swap _ _ _))
          exact ⟨_, n, some h1.next, by simp [e, e1, hl, e3, e2]; rfl, q2, rfl⟩

end PcreJob

/-- C148. Whatever the library answers and whichever allocations fail: `pcre_wrap_compile` either returns NULL with memory as before, or a job such that
what was allocated is exactly the job's blocks, all of which `pcre_wrap_free_job` frees, each once. -/
theorem C148_job_memory (h : H) (lib : Lib) : ∃ h' r err, compile h lib = some (h', r, err) ∧
    (r = none → h'.live.Perm h.live) ∧
    (∀ j, r = some j → h'.live.Perm (j.blocks ++ h.live) ∧ ∃ h'', freeJob h' j = some h'' ∧ h''.live.Perm h.live) := by
  obtain ⟨h', r, err, e, q⟩ := compile_ok h lib
  refine ⟨h', r, err, e, ?_, ?_⟩
  · rintro rfl; exact q
  · rintro j rfl; exact ⟨q, freeJob_ok q⟩

/-- C148. `BufferSearchAndReplace`, with any allocation failing and any answers of the library: it frees nothing twice, sets the buffer exactly when it returns NULL,
and memory is as before when it returns NULL or refuses the pattern; when matching fails, exactly the blocks of the compiled job remain. -/
theorem C148_search_memory (h : H) (lib : Lib) (n : Nat) (last : Int) :
    ∃ h' msg set lost, searchAndReplace h lib n last = some (h', msg, set) ∧ (msg = none ↔ set = true) ∧ h'.live.Perm (lost ++ h.live) ∧
      (lost = [] ∨ ∃ h1 j err, compile h lib = some (h1, some j, err) ∧ lost = j.blocks ∧ msg ≠ none) := by
  obtain ⟨h1, r, err, e1, q1⟩ := compile_ok h lib
  unfold searchAndReplace
  cases r with
  | none => exact ⟨h1, _, false, [], by simp [e1]; rfl, by simp, by simpa using q1, Or.inl rfl⟩
  | some j =>
    obtain ⟨h2, err2, r2, e2, q2⟩ := execute_ok h1 n last
    cases r2 with
    | none =>
      refine ⟨h2, some (strerror err2), false, j.blocks, by simp [e1, e2, q2.2], by simp, q2.1.trans q1, Or.inr ⟨h1, j, err, e1, rfl, by simp⟩⟩
    | some b =>
      have hn : ¬ err2 < 0 := by rw [q2.2]; omega
      obtain ⟨l, e3, q3⟩ := free_perm q2.1
      obtain ⟨h4, e4, q4⟩ := freeJob_ok (h := { h2 with live := l }) (q3.trans q1)
      exact ⟨h4, none, true, [], by simp [e1, e2, hn, e3, e4], by simp, by simpa using q4, Or.inl rfl⟩

/-- A global search with 50 matches: the array of matches grows once. -/
example : (searchAndReplace ⟨[7], 8, []⟩ ⟨true, 0, true, false, 0, false⟩ 50 (-1)).map (fun r => (r.1.live, r.1.next, r.2.1, r.2.2)) = some ([7], 16, none, true) := by
  decide +kernel

/-- The third allocation fails: refused, nothing left. -/
example : (searchAndReplace ⟨[7], 8, [true, true, false]⟩ ⟨true, 0, true, false, 0, false⟩ 50 (-1)).map (fun r => (r.1.live, r.2.2)) = some ([7], false) := by
  decide +kernel

/-- Finding: when matching fails (here PCRE's match limit, -8), the compiled job, five blocks, is lost. -/
theorem C148_failed_match_leaks_negated :
    (searchAndReplace ⟨[], 0, []⟩ ⟨true, 0, true, false, 0, false⟩ 0 (-8)).map (fun r => (r.1.live.length, r.2.2)) = some (5, false) := by
  decide +kernel

/-- Finding: the message for every pattern that does not compile says that everything is fine, because `pcre_compile` stores the offset of the error where the code expects an error number. -/
theorem C148_bad_pattern_message_negated (h : H) (lib : Lib) (hc : lib.compiles = false) (hm : h.plan.head? ≠ some false) (n : Nat) (last : Int) :
    (searchAndReplace h lib n last).map (fun r => r.2.1) = some (some "(pcre_wrap:) Everything's just fine. Thanks for asking.") := by
  obtain ⟨h', e', q⟩ := freeJob_ok (h := { live := h.next :: h.live, next := h.next + 1, plan := h.plan.tail }) (j := ⟨h.next, none, none, none⟩) (L := h.live)
    (by simp [Job.blocks, substBlocks])
  have hma : malloc h = ({ live := h.next :: h.live, next := h.next + 1, plan := h.plan.tail }, some h.next) := by
    unfold malloc
    split
    · rename_i rest hp; rw [hp] at hm; simp at hm
    · rfl
  have he : ¬ ((lib.erroffset : Int) < 0) := by omega
  simp [searchAndReplace, compile, hma, hc, e', strerror, he]

/-- **C148**. The documented error numbers have different messages, none of them the one for unknown numbers or for success. -/
theorem C148_messages_tell_errors_apart :
    ([-6, -2, -3, -4, -5, -7, -1, -10, -11, -12, -13, -14].map strerror ++ ["Unknown error", "(pcre_wrap:) Everything's just fine. Thanks for asking."]).Nodup ∧
    (∀ e : Int, e < 0 → e ∉ [-6, -2, -3, -4, -5, -7, -1, -10, -11, -12, -13, -14] → strerror e = "Unknown error") ∧
    ∀ e : Int, 0 ≤ e → strerror e = "(pcre_wrap:) Everything's just fine. Thanks for asking." := by
  refine ⟨by decide +kernel, fun e h1 h2 => ?_, fun e h => ?_⟩
  · simp only [List.mem_cons, List.not_mem_nil, or_false, not_or] at h2
    simp [strerror, h1, h2]
  · simp [strerror, show ¬ e < 0 by omega]
