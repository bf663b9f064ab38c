import Mathlib.Tactic.IntervalCases
import Verif.Model.CloseFrom
import Verif.Spec.CloseFrom
/-! # C137: closefrom -/
namespace CloseFrom
open CloseFromSpec

theorem digit_ok {k : Nat} (hk : k < 10) : digit (UInt8.ofNat (48 + k)) = k := by
  interval_cases k <;> rfl

theorem decimal_digits (n : Nat) : (∀ c ∈ decimal n, digit c < 10) ∧ (decimal n).foldl (fun m c => 10 * m + digit c) 0 = n ∧ decimal n ≠ [] := by
  fun_induction decimal n with
  | case1 n h =>
    refine ⟨?_, ?_, by simp⟩
    · intro c hc
      rw [List.mem_singleton] at hc
      rw [hc, digit_ok h]; exact h
    · rw [List.foldl_cons, List.foldl_nil, digit_ok h]; omega
  | case2 n h ih =>
    have hm : n % 10 < 10 := Nat.mod_lt _ (by omega)
    refine ⟨?_, ?_, by simp⟩
    · intro c hc
      rcases List.mem_append.1 hc with hc | hc
      · exact ih.1 c hc
      · rw [List.mem_singleton] at hc
        rw [hc, digit_ok hm]; exact hm
    · rw [List.foldl_append, ih.2.1]
      simp only [List.foldl_cons, List.foldl_nil, digit_ok hm]
      omega

/-- Only zero begins with a zero. -/
theorem decimal_head (n : Nat) (hn : n ≠ 0) : ∀ t, decimal n ≠ 48 :: t := by
  fun_induction decimal n with
  | case1 n h =>
    intro t ht
    have : n < 10 := h
    interval_cases n <;> simp_all
  | case2 n h ih =>
    intro t ht
    obtain ⟨c, s, hs⟩ := List.exists_cons_of_ne_nil (decimal_digits (n / 10)).2.2
    rw [hs, List.cons_append, List.cons.injEq] at ht
    exact ih (by omega) s (by rw [hs, ht.1])

theorem scanI_decimal (n : Nat) : scanI (decimal n) = some n := by
  by_cases hn : n = 0
  · subst hn; decide +kernel
  · obtain ⟨h1, h2, h3⟩ := decimal_digits n
    have hd : digits 10 (decimal n) = decimal n := by
      have := List.takeWhile_append_of_pos (p := fun c => decide (digit c < 10)) (l₁ := decimal n) (l₂ := []) (fun c hc => by simpa using h1 c hc)
      simpa [digits] using this
    unfold scanI
    split
    · rename_i heq; exact absurd heq (decimal_head n hn _)
    · rename_i heq; exact absurd heq (decimal_head n hn _)
    · rw [hd, if_neg h3, h2]

theorem decimal_not_dots (n : Nat) : decimal n ≠ [46] ∧ decimal n ≠ [46, 46] := by
  obtain ⟨h1, _, _⟩ := decimal_digits n
  constructor <;> intro h <;> rw [h] at h1 <;> exact absurd (h1 46 (by simp)) (by decide)

theorem mem_close {x : Nat} {f : Int} {fds : Fds} : x ∈ close f fds ↔ x ∈ fds ∧ (x : Int) ≠ f := by simp [close]

theorem close_filter (f : Int) (fds : Fds) (p : Nat → Bool) : close f (fds.filter p) = fds.filter fun x => p x && decide ((x : Int) ≠ f) := by
  rw [close, List.filter_filter]
  congr 1
  funext x
  rw [Bool.and_comm]

/-- Which descriptors the loop has closed. -/
theorem procLoop_eq (fd : Int) (iter : Nat) : ∀ (names : List (List UInt8)) (fds : Fds), (∀ e ∈ names, e = [46] ∨ e = [46, 46] ∨ ∃ n, e = decimal n) →
    (procLoop fd iter names fds).1 = 0 ∧ (procLoop fd iter names fds).2 = fds.filter fun x => ¬(decimal x ∈ names ∧ x ≠ iter ∧ fd ≤ x) := by
  intro names
  induction names with
  | nil => intro fds _; exact ⟨rfl, (List.filter_eq_self.2 (by simp)).symm⟩
  | cons e names ih =>
    intro fds h
    have ih' := fun fds => ih fds (fun e he => h e (by simp [he]))
    unfold procLoop
    by_cases hdot : e = [46] ∨ e = [46, 46]
    · rw [if_pos hdot]
      refine ⟨(ih' fds).1, (ih' fds).2.trans ?_⟩
      congr 1
      funext x
      have : decimal x ≠ e := by rcases hdot with rfl | rfl; exacts [(decimal_not_dots x).1, (decimal_not_dots x).2]
      simp [this]
    · rw [if_neg hdot]
      obtain ⟨n, rfl⟩ := (h e (by simp)).resolve_left (fun h => hdot (Or.inl h)) |>.resolve_left (fun h => hdot (Or.inr h))
      rw [scanI_decimal]
      have hinj : ∀ x, decimal x = decimal n ↔ x = n := fun x => ⟨fun hx => by have := congrArg scanI hx; rw [scanI_decimal, scanI_decimal] at this; simpa using this, fun hx => by rw [hx]⟩
      by_cases hc : (n : Int) ≠ iter ∧ (n : Int) ≥ fd
      · simp only [if_pos hc]
        refine ⟨(ih' _).1, (ih' _).2.trans ?_⟩
        rw [close, List.filter_filter]
        congr 1
        funext x
        by_cases hx : x = n
        · subst hx
          have : x ≠ iter := by have := hc.1; omega
          simp [this, hc.2]
        · simp [hinj, hx]
      · simp only [if_neg hc]
        refine ⟨(ih' _).1, (ih' _).2.trans ?_⟩
        congr 1
        funext x
        by_cases hx : x = n
        · subst hx
          have : ¬(x ≠ iter ∧ fd ≤ x) := by intro hh; exact hc ⟨by omega, by omega⟩
          simp only [this, and_false]
        · simp [hinj, hx]

/-- With /proc: whatever order the listing comes in, exactly the descriptors from `fd` on are closed, and that of the directory. -/
theorem C137_via_proc (fd : Int) (iter : Nat) (names : List (List UInt8)) (fds : Fds) (hiter : iter ∉ fds)
    (hlist : Listing names ((procLoop fd iter names (iter :: fds)).2)) :
    viaProc fd iter names fds = (0, fds.filter fun x : Nat => (x : Int) < fd) := by
  obtain ⟨h1, h2⟩ := hlist
  obtain ⟨h3, h4⟩ := procLoop_eq fd iter names (iter :: fds) h1
  rw [h4] at h2
  refine Prod.ext h3 ?_
  show close iter (procLoop fd iter names (iter :: fds)).2 = _
  rw [h4, close_filter, List.filter_cons]
  simp only [ne_eq, not_true_eq_false, decide_false, Bool.and_false, Bool.false_eq_true, if_false]
  refine List.filter_congr fun x hx => ?_
  have hxi : x ≠ iter := fun e => hiter (e ▸ hx)
  have hxi' : ¬(x : Int) = iter := by omega
  by_cases hlt : (x : Int) < fd
  · have : ¬fd ≤ (x : Int) := by omega
    simp [hlt, this, hxi']
  · have hle : fd ≤ (x : Int) := by omega
    have : decimal x ∈ names := by
      by_contra hn
      exact hn (h2 x (by simp [hn, hx]))
    simp [this, hxi, hle, hlt]

/-- 0, 1, 2, 5, 7 open, closefrom(3), the directory on 3: a listing in which 5 and 7 come in the wrong order. -/
example : Listing [[46], [46, 46], decimal 7, decimal 0, decimal 3, decimal 1, decimal 2, decimal 5] ((procLoop 3 3 [[46], [46, 46], decimal 7, decimal 0, decimal 3, decimal 1, decimal 2, decimal 5] [3, 0, 1, 2, 5, 7]).2) ∧
    viaProc 3 3 [[46], [46, 46], decimal 7, decimal 0, decimal 3, decimal 1, decimal 2, decimal 5] [0, 1, 2, 5, 7] = (0, [0, 1, 2]) := by
  refine ⟨⟨?_, ?_⟩, by decide +kernel⟩
  · intro e he
    simp only [List.mem_cons, List.not_mem_nil, or_false] at he
    rcases he with rfl | rfl | rfl | rfl | rfl | rfl | rfl | rfl
    exacts [Or.inl rfl, Or.inr (Or.inl rfl), Or.inr (Or.inr ⟨_, rfl⟩), Or.inr (Or.inr ⟨_, rfl⟩), Or.inr (Or.inr ⟨_, rfl⟩), Or.inr (Or.inr ⟨_, rfl⟩), Or.inr (Or.inr ⟨_, rfl⟩), Or.inr (Or.inr ⟨_, rfl⟩)]
  · decide +kernel

theorem rangeLoop_eq : ∀ (n : Nat) (c : Int) (fds : Fds), rangeLoop n c fds = fds.filter fun x : Nat => (x : Int) < c ∨ c + n ≤ x := by
  intro n
  induction n with
  | zero =>
    intro c fds
    show fds = _
    symm
    rw [List.filter_eq_self]
    intro x _
    simp
    omega
  | succ n ih =>
    intro c fds
    show rangeLoop n (c + 1) (close c fds) = _
    rw [ih, close, List.filter_filter]
    refine List.filter_congr fun x _ => ?_
    rw [← Bool.decide_and, decide_eq_decide]
    omega

/-- Without /proc: exactly those from `fd` on and below the limit are closed. -/
theorem C137_via_range (fd max : Int) (fds : Fds) : viaRange fd max fds = (0, fds.filter fun x : Nat => (x : Int) < fd ∨ (max ≤ x ∧ fd ≤ x)) := by
  rw [viaRange, rangeLoop_eq]
  congr 1
  refine List.filter_congr fun x _ => ?_
  rw [decide_eq_decide]
  omega

/-- So if no descriptor is at or above the limit, as it should. -/
theorem C137_via_range_below_limit (fd max : Int) (fds : Fds) (h : ∀ x ∈ fds, (x : Int) < max) : viaRange fd max fds = (0, fds.filter fun x : Nat => (x : Int) < fd) := by
  rw [C137_via_range]
  congr 1
  refine List.filter_congr fun x hx => ?_
  have := h x hx
  rw [decide_eq_decide]
  omega

example : viaRange 3 1024 [0, 1, 2, 5, 1023] = (0, [0, 1, 2]) := by
  rw [C137_via_range_below_limit _ _ _ (by simp)]; rfl

/-- Descriptors at or above the limit stay open (the limit can be lowered below them; sysconf says -1 when there is none, and then nothing is closed). -/
theorem C137_limit_negated : viaRange 3 256 [0, 1, 2, 300] = (0, [0, 1, 2, 300]) ∧ ∀ fd fds, 0 ≤ fd → viaRange fd (-1) fds = (0, fds) := by
  refine ⟨by rw [C137_via_range]; rfl, fun fd fds h => ?_⟩
  rw [C137_via_range]
  congr 1
  rw [List.filter_eq_self]
  intro x _
  simp
  omega

theorem closeAll_eq : ∀ (fs : List Nat) (fds : Fds), closeAll fs fds = fds.filter fun x => decide (x ∉ fs) := by
  intro fs
  induction fs with
  | nil => intro fds; exact (List.filter_eq_self.2 (by simp)).symm
  | cons f fs ih =>
    intro fds
    rw [closeAll, ih, close, List.filter_filter]
    refine List.filter_congr fun x _ => ?_
    rw [← Bool.decide_and, decide_eq_decide]
    simp
    tauto

/-- The HP-UX variant does not look at its argument: it closes every descriptor, standard input, output and error included. -/
theorem C137_pstat_closes_everything_negated (fds : Fds) : viaPstat fds = (0, []) := by
  fun_induction viaPstat fds with
  | case1 fds h =>
    have : fds = [] := by
      cases fds with
      | nil => rfl
      | cons a l => simp at h
    rw [this]
  | case2 fds h ih => exact ih

end CloseFrom
