import Mathlib.Tactic.IntervalCases
import Verif.Model.Mkdtemp
import Verif.Spec.Mkdtemp
import Verif.Props.Compat
/-! # C138: mkdtemp -/
namespace Mkdtemp
open MkdtempSpec

theorem six_digits (i : Nat) : (six i).length = 6 ∧ ∀ c ∈ six i, 48 ≤ c ∧ c ≤ 57 := by
  refine ⟨rfl, fun c hc => ?_⟩
  simp only [six, List.mem_map] at hc
  obtain ⟨p, _, rfl⟩ := hc
  have hm : i / p % 10 < 10 := Nat.mod_lt _ (by omega)
  generalize i / p % 10 = k at hm
  interval_cases k <;> decide

/-- What the loop leaves behind. -/
structure LoopOk (pre : Bytes) (n i : Nat) (s : St) (o : Out) : Prop where
  ok : o.errno = none → ∃ j, i ≤ j ∧ j < i + n ∧ o.text = pre ++ six j ∧ o.st.made = s.made ++ [o.text] ∧ o.st.closed = s.closed ++ [0] ∧
    ∃ fs : FS, fs o.text = false ∧ o.st.fs = fun p => p = o.text || fs p
  bad : ∀ e, o.errno = some e → o.st.made = s.made ∧ o.st.closed = s.closed
  tried : ∃ k, k ≤ n ∧ o.st.tried = s.tried ++ (List.range' i k).map (fun j => pre ++ six j)

theorem LoopOk.step {pre : Bytes} {n i : Nat} {s s' : St} {o : Out} (h : LoopOk pre n (i + 1) s' o) (h1 : s'.made = s.made) (h2 : s'.closed = s.closed) (h3 : s'.tried = s.tried ++ [pre ++ six i]) : LoopOk pre (n + 1) i s o := by
  refine ⟨fun he => ?_, ?_, ?_⟩
  · obtain ⟨j, a1, a2, a3⟩ := h.ok he
    rw [h1, h2] at a3
    exact ⟨j, by omega, by omega, a3⟩
  · rw [← h1, ← h2]; exact h.bad
  · obtain ⟨k, hk, ht⟩ := h.tried
    refine ⟨k + 1, by omega, ?_⟩
    rw [ht, h3, List.range'_succ]
    simp

theorem loop_ok (w : World) (pre : Bytes) (hf : ∀ i, w.fail i ≠ some 0) : ∀ n i text s, LoopOk pre n i s (loop w pre n i text s) := by
  intro n
  induction n with
  | zero => intro i text s; exact ⟨fun h => by simp [loop] at h, fun _ _ => ⟨rfl, rfl⟩, 0, by simp [loop]⟩
  | succ n ih =>
    intro i text s
    unfold loop
    simp only [mkdir]
    by_cases hex : w.change i s.fs (pre ++ six i) = true
    · simp only [hex, if_true]
      rw [if_neg (by decide), if_neg (by simp)]
      exact (ih (i + 1) (pre ++ six i) _).step rfl rfl rfl
    · simp only [hex, Bool.false_eq_true, if_false]
      cases hw : w.fail i with
      | none =>
        simp only [if_true]
        exact ⟨fun _ => ⟨i, by omega, by omega, rfl, rfl, rfl, w.change i s.fs, by simpa using hex, rfl⟩, fun e he => by simp at he, 1, by omega, rfl⟩
      | some e =>
        have he : e ≠ 0 := fun h => hf i (by rw [hw, h])
        simp only [he, if_false]
        by_cases hee : e = EEXIST
        · simp only [hee, ne_eq, not_true_eq_false, if_false]
          exact (ih (i + 1) (pre ++ six i) _).step rfl rfl rfl
        · simp only [ne_eq, hee, not_false_eq_true, if_true]
          exact ⟨fun h => by simp at h, fun _ _ => ⟨rfl, rfl⟩, 1, by omega, rfl⟩

theorem occurs_end (pre : Bytes) : CompatSpec.OccursAt id (List.replicate 6 88) (pre ++ List.replicate 6 88) pre.length := by
  refine ⟨by simp, ?_⟩
  simp

/-- Where the replacement finds the X's. -/
theorem mkdtemp_eq (w : World) (fs : FS) (pre : Bytes) (hpre : pre ≠ []) : mkdtemp w (pre ++ List.replicate 6 88) fs = some (loop w pre 1000000 0 (pre ++ List.replicate 6 88) ⟨fs, [], [], []⟩) := by
  obtain ⟨r, h1, h2⟩ := Compat.C76_strrstr_partial (pre ++ List.replicate 6 88) (List.replicate 6 88)
  have hpos : 0 < pre.length := List.length_pos_iff.2 hpre
  have hr : r = some pre.length := by
    cases r with
    | none => exact absurd ⟨hpos, occurs_end pre⟩ (h2 pre.length)
    | some x =>
      obtain ⟨⟨_, hx1, hx2⟩, hlast⟩ := h2
      have hle : x ≤ pre.length := by
        have := hx2.length_le
        simp at this hx1
        omega
      rcases Nat.lt_or_ge x pre.length with hlt | hge
      · exact absurd ⟨hpos, occurs_end pre⟩ (hlast _ hlt)
      · rw [Nat.le_antisymm hle hge]
  have h1' : Compat.strrstr (pre ++ List.replicate 6 88) [88, 88, 88, 88, 88, 88] = some (some pre.length) := by
    rw [← hr]; exact h1
  unfold mkdtemp
  rw [h1']
  simp only [Option.bind_eq_bind, Option.bind_some, List.drop_left, List.take_left]
  rw [if_neg (by decide)]

/-- With anything before the X's: on success exactly one directory was made, its name was free at that moment and is made from the template, the template holds it, all lower numbers had been tried and were taken; on failure none was made; at most a million were tried. -/
theorem C138_mkdtemp (w : World) (hf : ∀ i, w.fail i ≠ some 0) (fs : FS) (pre : Bytes) (hpre : pre ≠ []) :
    ∃ o, mkdtemp w (pre ++ List.replicate 6 88) fs = some o ∧
      (o.errno = none → FromTemplate (pre ++ List.replicate 6 88) o.text ∧ o.st.made = [o.text] ∧ ∃ before : FS, before o.text = false ∧ o.st.fs = fun p => p = o.text || before p) ∧
      (o.errno ≠ none → o.st.made = []) ∧
      ∃ k, k ≤ 1000000 ∧ o.st.tried = (List.range k).map fun j => pre ++ six j := by
  refine ⟨_, mkdtemp_eq w fs pre hpre, ?_⟩
  have h := loop_ok w pre hf 1000000 0 (pre ++ List.replicate 6 88) ⟨fs, [], [], []⟩
  refine ⟨fun he => ?_, fun he => ?_, ?_⟩
  · obtain ⟨j, _, _, h3, h4, _, h6⟩ := h.ok he
    exact ⟨⟨pre, six j, rfl, h3, (six_digits j).1, (six_digits j).2⟩, h4, h6⟩
  · obtain ⟨e, he⟩ := Option.ne_none_iff_exists'.1 he
    exact (h.bad e he).1
  · obtain ⟨k, hk, ht⟩ := h.tried
    exact ⟨k, hk, by rw [ht, List.range_eq_range']; rfl⟩

/-- **C138**. The names tried are the template with 000000, 000001, ... in order: read as a decimal number, the digits of the j-th name are j. So no name is tried twice. -/
theorem C138_names_count_up (j : Nat) (hj : j < 1000000) : (six j).foldl (fun n c => 10 * n + (c.toNat - 48)) 0 = j := by
  have dig : ∀ k, k < 10 → (UInt8.ofNat (48 + k)).toNat - 48 = k := by
    intro k hk
    interval_cases k <;> rfl
  simp only [six, List.map_cons, List.map_nil, List.foldl_cons, List.foldl_nil, dig _ (Nat.mod_lt _ (show 0 < 10 by omega))]
  omega

example : six 1234 = [48, 48, 49, 50, 51, 52] := by decide

/-- A template that does not end in six X is refused, and so is one that is nothing else (the replacement strrstr does not see it): no directory is tried. -/
theorem C138_refused (w : World) (fs : FS) (t : Bytes) (h : ∀ pre, pre ≠ [] → t ≠ pre ++ List.replicate 6 88) : ∃ o, mkdtemp w t fs = some o ∧ o.errno = some EINVAL ∧ o.st.tried = [] ∧ o.text = t := by
  obtain ⟨r, h1, h2⟩ := Compat.C76_strrstr_partial t (List.replicate 6 88)
  have h1' : Compat.strrstr t [88, 88, 88, 88, 88, 88] = some r := h1
  unfold mkdtemp
  rw [h1']
  cases r with
  | none => exact ⟨_, rfl, rfl, rfl, rfl⟩
  | some x =>
    simp only [Option.bind_eq_bind, Option.bind_some]
    have : t.drop x ≠ [88, 88, 88, 88, 88, 88] := by
      intro hd
      refine h (t.take x) ?_ (by show t = t.take x ++ [88, 88, 88, 88, 88, 88]; rw [← hd, List.take_append_drop])
      intro h0
      have hx := h2.1.1
      have := congrArg List.length hd
      simp only [List.length_drop, List.length_cons, List.length_nil] at this
      rcases List.take_eq_nil_iff.1 h0 with h0 | h0
      · omega
      · rw [h0] at this; simp at this
    rw [if_pos this]
    exact ⟨_, rfl, rfl, rfl, rfl⟩

/-- "/t/XXXXXX" when 000000 exists: 000001 is made. -/
example : ((mkdtemp ⟨fun _ fs => fs, fun _ => none⟩ "/t/XXXXXX".toUTF8.data.toList (fun p => p = "/t/000000".toUTF8.data.toList)).map fun o => (o.errno, o.text, o.st.made)) =
    some (none, "/t/000001".toUTF8.data.toList, ["/t/000001".toUTF8.data.toList]) := by
  decide +kernel

/-- Every success closes descriptor 0: the result of mkdir is taken for a descriptor. -/
theorem C138_closes_standard_input_negated (w : World) (hf : ∀ i, w.fail i ≠ some 0) (fs : FS) (pre : Bytes) (hpre : pre ≠ []) :
    ∃ o, mkdtemp w (pre ++ List.replicate 6 88) fs = some o ∧ (o.errno = none → o.st.closed = [0]) := by
  refine ⟨_, mkdtemp_eq w fs pre hpre, fun he => ?_⟩
  obtain ⟨_, _, _, _, _, h5, _⟩ := (loop_ok w pre hf 1000000 0 _ ⟨fs, [], [], []⟩).ok he
  exact h5

/-- The template "XXXXXX" is refused although a directory could be made. -/
theorem C138_bare_template_negated (w : World) (fs : FS) : ∃ o, mkdtemp w (List.replicate 6 88) fs = some o ∧ o.errno = some EINVAL := by
  obtain ⟨o, h1, h2, _⟩ := C138_refused w fs (List.replicate 6 88) (by
    intro pre hpre h
    have := congrArg List.length h
    simp at this
    exact hpre this)
  exact ⟨o, h1, h2⟩

end Mkdtemp
