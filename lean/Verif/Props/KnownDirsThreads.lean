import Verif.Model.KnownDirsThreads
/-! # C184: known directories with several threads -/
open KnownDirsThreads

namespace KnownDirsThreads

structure Inv (text : Bytes) (s : State) : Prop where
  cell : ∀ k, s.cells k = 0 ∨ text[k]? = some (s.cells k)
  write : ∀ t k, s.th t = .write k → k ≤ text.length ∧ ∀ j, j < k → text[j]? = some (s.cells j)
  read : ∀ t k acc, s.th t = .read k acc → acc = text.take k ∧ k ≤ text.length ∧ ∀ j, j < k → text[j]? = some (s.cells j)
  first : ∀ t k acc, s.th t = .read k acc → s.cells 0 ≠ 0
  got : ∀ x ∈ s.got, x.2 <+: text ∧ x.2 ≠ []
  full : ∀ x ∈ s.got, x.2 = text → ∀ j, j < text.length → text[j]? = some (s.cells j)

theorem goto_th (s : State) (t u : Nat) (pc : Pc) : (s.goto t pc).th u = if u = t then pc else s.th u := rfl

theorem step_inv {once : Bool} {text : Bytes} (h0 : ∀ c ∈ text, c ≠ 0) (hne : text ≠ []) {s : State} (i : Inv text s) (t : Nat) :
    Inv text (step once text s t) := by
  have hlen : 0 < text.length := List.length_pos_iff.mpr hne
  unfold step
  cases hth : s.th t with
  | idle =>
    simp only
    split
    · rename_i hc
      refine ⟨i.cell, ?_, ?_, ?_, i.got, i.full⟩
      · intro u k hu
        rw [goto_th] at hu
        split at hu
        · cases hu
        · exact i.write u k hu
      · intro u k acc hu
        rw [goto_th] at hu
        split at hu
        · cases hu; exact ⟨by simp, Nat.zero_le _, fun j hj => by omega⟩
        · exact i.read u k acc hu
      · intro u k acc hu
        exact hc.2
    · refine ⟨i.cell, ?_, ?_, ?_, i.got, i.full⟩
      · intro u k hu
        rw [goto_th] at hu
        split at hu
        · cases hu; exact ⟨Nat.zero_le _, fun j hj => by omega⟩
        · exact i.write u k hu
      · intro u k acc hu
        rw [goto_th] at hu
        split at hu
        · cases hu
        · exact i.read u k acc hu
      · intro u k acc hu
        rw [goto_th] at hu
        split at hu
        · cases hu
        · exact i.first u k acc hu
  | write k =>
    obtain ⟨hk, hw⟩ := i.write t k hth
    simp only
    split
    · rename_i c hc
      have hkl : k < text.length := (List.getElem?_eq_some_iff.mp hc).1
      have keep : ∀ j, text[j]? = some (s.cells j) → text[j]? = some (if j = k then c else s.cells j) := by
        intro j hj
        split
        · rename_i e; rw [e]; exact hc
        · exact hj
      refine ⟨?_, ?_, ?_, ?_, i.got, ?_⟩
      · intro j
        show (if j = k then c else s.cells j) = 0 ∨ text[j]? = some (if j = k then c else s.cells j)
        split
        · rename_i e; rw [e]; exact Or.inr hc
        · exact i.cell j
      · intro u m hu
        have hu : (if u = t then Pc.write (k + 1) else s.th u) = .write m := hu
        split at hu
        · cases hu
          refine ⟨hkl, fun j hj => ?_⟩
          show text[j]? = some (if j = k then c else s.cells j)
          split
          · rename_i e; rw [e]; exact hc
          · exact hw j (by omega)
        · obtain ⟨a, b⟩ := i.write u m hu
          exact ⟨a, fun j hj => keep j (b j hj)⟩
      · intro u m acc hu
        have hu : (if u = t then Pc.write (k + 1) else s.th u) = .read m acc := hu
        split at hu
        · cases hu
        · obtain ⟨a, a2, b⟩ := i.read u m acc hu
          exact ⟨a, a2, fun j hj => keep j (b j hj)⟩
      · intro u m acc hu
        have hu : (if u = t then Pc.write (k + 1) else s.th u) = .read m acc := hu
        split at hu
        · cases hu
        · show (if 0 = k then c else s.cells 0) ≠ 0
          split
          · exact h0 c (List.mem_of_getElem? hc)
          · exact i.first u m acc hu
      · intro x hx hxt j hj
        exact keep j (i.full x hx hxt j hj)
    · rename_i hc
      have hkl : text.length ≤ k := List.getElem?_eq_none_iff.mp hc
      have hkk : k = text.length := by omega
      have keep : ∀ j, text[j]? = some (s.cells j) → text[j]? = some (if j = k then 0 else s.cells j) := by
        intro j hj
        have := (List.getElem?_eq_some_iff.mp hj).1
        rw [if_neg (by omega)]; exact hj
      refine ⟨?_, ?_, ?_, ?_, i.got, ?_⟩
      · intro j
        show (if j = k then 0 else s.cells j) = 0 ∨ text[j]? = some (if j = k then 0 else s.cells j)
        split
        · exact Or.inl rfl
        · exact i.cell j
      · intro u m hu
        have hu : (if u = t then Pc.read 0 [] else s.th u) = .write m := hu
        split at hu
        · cases hu
        · obtain ⟨a, b⟩ := i.write u m hu
          exact ⟨a, fun j hj => keep j (b j hj)⟩
      · intro u m acc hu
        have hu : (if u = t then Pc.read 0 [] else s.th u) = .read m acc := hu
        split at hu
        · cases hu; exact ⟨by simp, Nat.zero_le _, fun j hj => by omega⟩
        · obtain ⟨a, a2, b⟩ := i.read u m acc hu
          exact ⟨a, a2, fun j hj => keep j (b j hj)⟩
      · intro u m acc hu
        show (if 0 = k then 0 else s.cells 0) ≠ 0
        rw [if_neg (by omega)]
        have := hw 0 (by omega)
        exact h0 _ (List.mem_of_getElem? this)
      · intro x hx hxt j hj
        exact keep j (i.full x hx hxt j hj)
  | read k acc =>
    obtain ⟨ha, hk, hr⟩ := i.read t k acc hth
    have hf := i.first t k acc hth
    simp only
    split
    · rename_i hz
      refine ⟨i.cell, ?_, ?_, ?_, ?_, ?_⟩
      · intro u m hu
        have hu : (if u = t then Pc.idle else s.th u) = .write m := hu
        split at hu
        · cases hu
        · exact i.write u m hu
      · intro u m acc hu
        have hu : (if u = t then Pc.idle else s.th u) = .read m acc := hu
        split at hu
        · cases hu
        · exact i.read u m acc hu
      · intro u m acc hu
        exact hf
      · intro x hx
        rcases List.mem_append.mp hx with hx | hx
        · exact i.got x hx
        · simp only [List.mem_singleton] at hx
          subst hx
          refine ⟨by rw [ha]; exact List.take_prefix _ _, ?_⟩
          intro he
          have : k = 0 := by
            have := congrArg List.length ha
            rw [show acc = [] from he] at this
            simp at this; omega
          subst this
          exact hf hz
      · intro x hx hxt
        rcases List.mem_append.mp hx with hx | hx
        · exact i.full x hx hxt
        · simp only [List.mem_singleton] at hx
          subst hx
          have : k = text.length := by
            have := congrArg List.length ha
            rw [show acc = text from hxt] at this
            simp at this; omega
          subst this
          exact hr
    · rename_i hz
      have hc : text[k]? = some (s.cells k) := (i.cell k).resolve_left hz
      have hkl : k < text.length := (List.getElem?_eq_some_iff.mp hc).1
      refine ⟨i.cell, ?_, ?_, ?_, i.got, i.full⟩
      · intro u m hu
        have hu : (if u = t then Pc.read (k + 1) (acc ++ [s.cells k]) else s.th u) = .write m := hu
        split at hu
        · cases hu
        · exact i.write u m hu
      · intro u m acc' hu
        have hu : (if u = t then Pc.read (k + 1) (acc ++ [s.cells k]) else s.th u) = .read m acc' := hu
        split at hu
        · cases hu
          refine ⟨?_, hkl, fun j hj => ?_⟩
          · rw [List.take_add_one, hc, ha]; rfl
          · by_cases e : j = k
            · rw [e]; exact hc
            · exact hr j (by omega)
        · exact i.read u m acc' hu
      · intro u m acc' hu
        exact hf

theorem init_inv (text : Bytes) : Inv text init :=
  ⟨fun _ => Or.inl rfl, by simp [init], by simp [init], by simp [init], by simp [init], by simp [init]⟩

theorem run_inv {once : Bool} {text : Bytes} (h0 : ∀ c ∈ text, c ≠ 0) (hne : text ≠ []) (sched : List Nat) : ∀ {s : State}, Inv text s →
    Inv text (run once text s sched) := by
  induction sched with
  | nil => intro s i; exact i
  | cons t l ih => intro s i; exact ih (step_inv h0 hne i t)

/-- With the whole text in the buffer, a step only reports the whole text. -/
theorem step_full {once : Bool} {text : Bytes} (h0 : ∀ c ∈ text, c ≠ 0) {s : State} (i : Inv text s)
    (hf : ∀ j, j < text.length → text[j]? = some (s.cells j)) (t : Nat) :
    (step once text s t).got = s.got ∨ (step once text s t).got = s.got ++ [(t, text)] := by
  unfold step
  cases hth : s.th t with
  | idle => simp only; split <;> exact Or.inl rfl
  | write k => simp only; split <;> exact Or.inl rfl
  | read k acc =>
    simp only
    split
    · rename_i hz
      obtain ⟨ha, hk, hr⟩ := i.read t k acc hth
      right
      show s.got ++ [(t, acc)] = _
      have : ¬k < text.length := by
        intro hkl
        have := hf k hkl
        rw [hz] at this
        exact h0 0 (List.mem_of_getElem? this) rfl
      rw [ha, List.take_of_length_le (by omega)]
    · exact Or.inl rfl

/-- The buffer keeps the whole text. -/
theorem step_keeps {once : Bool} {text : Bytes} {s : State} (i : Inv text s)
    (hf : ∀ j, j < text.length → text[j]? = some (s.cells j)) (t : Nat) : ∀ j, j < text.length → text[j]? = some ((step once text s t).cells j) := by
  unfold step
  cases hth : s.th t with
  | idle => simp only; split <;> exact hf
  | write k =>
    obtain ⟨hk, hw⟩ := i.write t k hth
    simp only
    split
    · rename_i c hc
      intro j hj
      show text[j]? = some (if j = k then c else s.cells j)
      split
      · rename_i e; rw [e]; exact hc
      · exact hf j hj
    · rename_i hc
      have hkl : text.length ≤ k := List.getElem?_eq_none_iff.mp hc
      intro j hj
      show text[j]? = some (if j = k then 0 else s.cells j)
      rw [if_neg (by omega)]; exact hf j hj
  | read k acc => simp only; split <;> exact hf

theorem run_full {once : Bool} {text : Bytes} (h0 : ∀ c ∈ text, c ≠ 0) (hne : text ≠ []) (sched : List Nat) : ∀ {s : State}, Inv text s →
    (∀ j, j < text.length → text[j]? = some (s.cells j)) → ∃ l, (run once text s sched).got = s.got ++ l ∧ ∀ x ∈ l, x.2 = text := by
  induction sched with
  | nil => intro s i hf; exact ⟨[], by simp [run], by simp⟩
  | cons t l ih =>
    intro s i hf
    obtain ⟨l', e, h⟩ := ih (step_inv (once := once) h0 hne i t) (step_keeps i hf t)
    have hr : run once text s (t :: l) = run once text (step once text s t) l := rfl
    rw [hr, e]
    rcases step_full (once := once) h0 i hf t with g | g
    · exact ⟨l', by rw [g], h⟩
    · refine ⟨(t, text) :: l', by rw [g]; simp, ?_⟩
      intro x hx
      rcases List.mem_cons.mp hx with rfl | hx
      · rfl
      · exact h x hx

/-- The writing part of a call by one thread alone. -/
theorem write_alone {once : Bool} {text : Bytes} (t : Nat) : ∀ n k (s : State), k + n = text.length → s.th t = .write k →
    (∀ j, j < k → text[j]? = some (s.cells j)) →
    (run once text s (List.replicate (n + 1) t)).th t = .read 0 [] ∧ (run once text s (List.replicate (n + 1) t)).got = s.got ∧
      ∀ j, j < text.length → text[j]? = some ((run once text s (List.replicate (n + 1) t)).cells j) := by
  intro n
  induction n with
  | zero =>
    intro k s hk hth hw
    have e : step once text s t = { s.goto t (.read 0 []) with cells := fun i => if i = k then 0 else s.cells i } := by
      unfold step; rw [hth]; simp only [show text[k]? = none from List.getElem?_eq_none_iff.mpr (by omega)]
    refine ⟨?_, ?_, ?_⟩
    · show (step once text s t).th t = _
      rw [e]; simp [State.goto]
    · show (step once text s t).got = _
      rw [e]; rfl
    · intro j hj
      show text[j]? = some ((step once text s t).cells j)
      rw [e]
      show text[j]? = some (if j = k then 0 else s.cells j)
      rw [if_neg (by omega)]; exact hw j (by omega)
  | succ n ih =>
    intro k s hk hth hw
    have hkl : k < text.length := by omega
    have e : step once text s t = { s.goto t (.write (k + 1)) with cells := fun i => if i = k then text[k] else s.cells i } := by
      unfold step; rw [hth]; simp only [show text[k]? = some text[k] by simp [hkl]]
    have := ih (k + 1) (step once text s t) (by omega) (by rw [e]; simp [State.goto]) (by
      intro j hj
      rw [e]
      show text[j]? = some (if j = k then text[k] else s.cells j)
      split
      · rename_i ee; subst ee; simp [hkl]
      · exact hw j (by omega))
    have g : (step once text s t).got = s.got := by rw [e]; rfl
    rw [g] at this
    exact this

end KnownDirsThreads

/-- **C184**. With any number of threads calling and reading under every schedule, what a caller reads at the pointer it got is never empty and always a
beginning of the right path: never bytes of anything else, never outside the buffer. -/
theorem C184_only_beginnings_of_the_path (once : Bool) (text : List UInt8) (h0 : ∀ c ∈ text, c ≠ 0) (hne : text ≠ []) (sched : List Nat) :
    ∀ x ∈ (run once text init sched).got, x.2 <+: text ∧ x.2 ≠ [] := (run_inv h0 hne sched (init_inv text)).got

/-- **C184**. Once any caller has read the whole path, every text that any thread reads later is the whole path, also for calls and reads under way. -/
theorem C184_complete_from_then_on (once : Bool) (text : List UInt8) (h0 : ∀ c ∈ text, c ≠ 0) (hne : text ≠ []) (before after : List Nat)
    (hc : ∃ x ∈ (run once text init before).got, x.2 = text) :
    ∃ later, (run once text init (before ++ after)).got = (run once text init before).got ++ later ∧ ∀ x ∈ later, x.2 = text := by
  have i := run_inv (once := once) h0 hne before (init_inv text)
  obtain ⟨x, hx, hxt⟩ := hc
  obtain ⟨l, e, h⟩ := run_full (once := once) h0 hne after i (i.full x hx hxt)
  refine ⟨l, ?_, h⟩
  rw [show run once text init (before ++ after) = run once text (run once text init before) after from List.foldl_append ..]
  exact e

/-- **C184**. If one thread makes its call before the other threads make any step, every text read by any thread is the whole path. -/
theorem C184_call_before_starting_threads (once : Bool) (text : List UInt8) (h0 : ∀ c ∈ text, c ≠ 0) (hne : text ≠ []) (t : Nat) (after : List Nat) :
    ∀ x ∈ (run once text init (List.replicate (text.length + 2) t ++ after)).got, x.2 = text := by
  have e0 : step once text init t = init.goto t (.write 0) := by
    unfold step; simp [init]
  have e1 : run once text init (List.replicate (text.length + 2) t) = run once text (init.goto t (.write 0)) (List.replicate (text.length + 1) t) := by
    show run once text (step once text init t) (List.replicate (text.length + 1) t) = _
    rw [e0]
  obtain ⟨_, g, f⟩ := write_alone (once := once) (text := text) t text.length 0 (init.goto t (.write 0)) (by omega) (by simp [State.goto])
    (fun j hj => by omega)
  have i := run_inv (once := once) h0 hne (List.replicate (text.length + 2) t) (init_inv text)
  rw [e1] at i
  obtain ⟨l, e, h⟩ := run_full (once := once) h0 hne after i f
  rw [show run once text init (List.replicate (text.length + 2) t ++ after) = run once text (run once text init (List.replicate (text.length + 2) t)) after from
    List.foldl_append .., e1, e, g]
  simpa [init, State.goto] using h

/-- **C184**, finding: when two threads make the first call at the same time, one can get a cut path: the buffer looks filled as soon as its first
byte is written. Here the path is "/h/.cfagent" and the second thread reads "/h". -/
theorem C184_race_gives_a_cut_path_negated :
    ∃ sched, (run true [47, 104, 47, 46, 99, 102, 97, 103, 101, 110, 116] init sched).got = [(1, [47, 104])] :=
  ⟨[0, 0, 0, 1, 1, 1, 1], by decide +kernel⟩

/-- The hypotheses are met: two threads, both get the whole path. -/
example : (run true [47, 104] init [0, 0, 0, 0, 1, 1, 1, 1, 0, 0, 0]).got = [(1, [47, 104]), (0, [47, 104])] := by decide +kernel
