import Mathlib.Data.List.Basic
import Verif.Spec.Alloc
import Verif.Props.Compat
/-! # C185: running out of memory -/
namespace Alloc

theorem report_eq (s : Proc) (r : Req) : report s r = { s with err := s.err ++ message r } := by cases r <;> rfl

theorem check_iff (r : Req) : check r = true ↔ asks r ≠ 0 := by
  cases r <;> simp [check, asks, Nat.mul_eq_zero]

theorem takeWhile_take_copy (str : Bytes) (n : Nat) (h : 0 ∈ str ∨ n ≤ str.length) : Compat.strnlen str n = some ((textAt str).take n).length := by
  refine Compat.C77_strnlen str n ?_
  rcases Nat.lt_or_ge str.length n with h1 | h1
  · have h0 : 0 ∈ str := by
      rcases h with h | h
      · exact h
      · omega
    obtain ⟨i, hi, e⟩ := List.getElem_of_mem h0
    exact .inr ⟨i, by omega, by rw [List.getElem?_eq_getElem hi, e]⟩
  · exact .inl h1

theorem take_textAt (str : Bytes) (k : Nat) (h : k ≤ (textAt str).length) : str.take k = (textAt str).take k := by
  unfold textAt at *
  have e : str = str.takeWhile (· ≠ 0) ++ str.dropWhile (· ≠ 0) := List.takeWhile_append_dropWhile.symm
  calc str.take k = (str.takeWhile (· ≠ 0) ++ str.dropWhile (· ≠ 0)).take k := by rw [← e]
    _ = _ := List.take_append_of_le_length h

theorem textAt_length_lt (str : Bytes) (h : 0 ∈ str) : (textAt str).length < str.length ∧ str[(textAt str).length]? = some 0 := by
  unfold textAt
  induction str with
  | nil => simp at h
  | cons c cs ih =>
    by_cases hc : c = 0
    · simp [hc]
    · have : 0 ∈ cs := by simpa [Ne.symm hc] using h
      simp [hc, ih this] 
      simpa using ih this

theorem textAt_le (str : Bytes) : (textAt str).length ≤ str.length := by
  unfold textAt
  exact (List.takeWhile_prefix _).length_le

theorem copy_strndup (str : Bytes) (len : Nat) (h : len ≤ (textAt str).length) :
    ((CMem.memcpy (List.replicate (len + 1) (none : Option UInt8)) 0 (str.map some) 0 len).bind fun d => CMem.write d len (some 0)) =
      some (((textAt str).take len).map some ++ [some 0]) := by
  have := textAt_le str
  have hl : (str.take len).length = len := by rw [List.length_take]; omega
  rw [CMem.memcpy, if_pos ⟨by simp, by simp; omega⟩]
  simp only [Option.bind_some, List.take_zero, List.nil_append, List.drop_zero, Nat.zero_add]
  rw [CMem.write_eq (by simp; omega), ← List.map_take, take_textAt _ _ h]
  have hl2 : (((textAt str).take len).map (some : UInt8 → Option UInt8)).length = len := by simp; omega
  rw [List.set_append_right _ _ (by omega), hl2]
  simp [List.drop_replicate]

theorem copy_strdup (str : Bytes) (h : 0 ∈ str) :
    CMem.memcpy (List.replicate ((textAt str).length + 1) (none : Option UInt8)) 0 (str.map some) 0 ((textAt str).length + 1) = some ((textAt str).map some ++ [some 0]) := by
  obtain ⟨h1, h2⟩ := textAt_length_lt str h
  rw [CMem.memcpy, if_pos ⟨by simp, by simp; omega⟩]
  simp only [List.take_zero, List.nil_append, List.drop_zero, Nat.zero_add]
  rw [List.take_add_one, ← List.map_take, take_textAt _ _ (Nat.le_refl _)]
  simp [h2]

theorem copy_memdup (data : Bytes) (size : Nat) (h : size ≤ data.length) :
    CMem.memcpy (List.replicate size (none : Option UInt8)) 0 (data.map some) 0 size = some ((data.take size).map some) := by
  rw [CMem.memcpy, if_pos ⟨by simp, by simpa using h⟩]
  simp

/-- The blocks after the block a request resizes is given back. -/
def given (h : Heap) (r : Req) : List (Option Block) :=
  match resizes r with
  | none => h.blocks
  | some a => h.blocks.set a none

/-- The block a request resizes. -/
def oldBlock (h : Heap) (r : Req) : Block :=
  match resizes r with
  | none => []
  | some a => (h.blocks[a]?).join.getD []

theorem lib_granted (grant : Nat → Bool) (h : Heap) (r : Req) (hr : Readable r) (hl : ∀ a, resizes r = some a → ∃ b, h.blocks[a]? = some (some b))
    (hf : Fits r) (hg : grant h.calls = true) :
    lib grant h r = some (⟨given h r ++ [some (content (oldBlock h r) r)], h.calls + 1⟩, some h.blocks.length) := by
  cases r with
  | malloc size => simp [lib, libMalloc, hg, given, resizes, content, Heap.put, Heap.tick]
  | calloc n m =>
    have hf : n * m < 2 ^ 64 := hf
    simp only [lib, libCalloc, hg, hf, and_self, if_true]
    simp [given, resizes, content, Heap.put, Heap.tick]
  | realloc p size =>
    cases p with
    | none => simp [lib, libRealloc, libMalloc, hg, given, resizes, content, Heap.put, Heap.tick]
    | some a =>
      obtain ⟨b, hb⟩ := hl a rfl
      simp [lib, libRealloc, hg, given, resizes, content, Heap.put, Heap.tick, hb, Heap.free, oldBlock, CMem.realloc]
  | strdup str =>
    have h0 : 0 ∈ str := hr
    have hn := takeWhile_take_copy str (str.length + 1) (.inl h0)
    have e : (List.take (str.length + 1) (textAt str)).length = (textAt str).length := by
      have := textAt_le str
      simp; omega
    simp only [lib, libStrdup, hn, e, Option.bind_eq_bind, Option.bind_some, hg, if_true, copy_strdup str h0]
    simp [given, resizes, content, Heap.put, Heap.tick]
  | strndup str n =>
    have hn := takeWhile_take_copy str n hr
    have e : (List.take n (textAt str)).length ≤ (textAt str).length := by simp; omega
    have hc := copy_strndup str _ e
    have et : (textAt str).take (List.take n (textAt str)).length = (textAt str).take n := by
      rw [List.length_take]
      rcases Nat.le_total n (textAt str).length with h1 | h1
      · rw [Nat.min_eq_left h1]
      · rw [Nat.min_eq_right h1, List.take_of_length_le (Nat.le_refl _), List.take_of_length_le h1]
    rw [et] at hc
    simp only [lib, libStrndup, hn, Option.bind_eq_bind, Option.bind_some, hg, if_true]
    rw [← Option.bind_assoc, hc]
    simp [given, resizes, content, Heap.put, Heap.tick]
  | memdup data size =>
    have h0 : size ≤ data.length := hr
    simp only [lib, libMemdup, hg, if_true, copy_memdup data size h0, Option.bind_eq_bind, Option.bind_some]
    simp [given, resizes, content, Heap.put, Heap.tick]

theorem lib_refused (grant : Nat → Bool) (h : Heap) (r : Req) (hr : Readable r) (hl : ∀ a, resizes r = some a → ∃ b, h.blocks[a]? = some (some b))
    (hg : ¬ (Fits r ∧ grant h.calls = true)) :
    lib grant h r = some (⟨if asks r = 0 then given h r else h.blocks, h.calls + 1⟩, none) := by
  cases r with
  | malloc size =>
    have hg : grant h.calls = false := by simpa [Fits] using hg
    simp [lib, libMalloc, hg, given, resizes, Heap.tick]
  | calloc n m =>
    have hg : ¬ (n * m < 2 ^ 64 ∧ grant h.calls = true) := hg
    simp only [lib, libCalloc, if_neg hg]
    simp [given, resizes, Heap.tick]
  | realloc p size =>
    have hg' : grant h.calls = false := by simpa [Fits] using hg
    cases p with
    | none => simp [lib, libRealloc, libMalloc, hg', given, resizes, Heap.tick]
    | some a =>
      obtain ⟨b, hb⟩ := hl a rfl
      by_cases hs : size = 0
      · simp [lib, libRealloc, hg', given, resizes, Heap.tick, hb, Heap.free, hs, asks]
      · simp [lib, libRealloc, hg', Heap.tick, hb, hs, asks]
  | strdup str =>
    have hg : grant h.calls = false := by simpa [Fits] using hg
    have h0 : 0 ∈ str := hr
    have hn := takeWhile_take_copy str (str.length + 1) (.inl h0)
    simp [lib, libStrdup, hn, hg, asks, Heap.tick]
  | strndup str n =>
    have hg : grant h.calls = false := by simpa [Fits] using hg
    have hn := takeWhile_take_copy str n hr
    simp [lib, libStrndup, hn, hg, asks, Heap.tick]
  | memdup data size =>
    have hg : grant h.calls = false := by simpa [Fits] using hg
    by_cases hs : size = 0 <;> simp [lib, libMemdup, hg, asks, Heap.tick, given, resizes, hs]

theorem lib_grows (grant : Nat → Bool) (h h' : Heap) (p : Option Nat) (r : Req) (e : lib grant h r = some (h', p)) : h.blocks.length ≤ h'.blocks.length := by
  cases r with
  | malloc size =>
    simp only [lib, libMalloc, Option.some.injEq] at e
    split at e <;> (injection e with e1 e2; subst e1; simp [Heap.put, Heap.tick])
  | calloc n m =>
    simp only [lib, libCalloc, Option.some.injEq] at e
    split at e <;> (injection e with e1 e2; subst e1; simp [Heap.put, Heap.tick])
  | realloc p size =>
    cases p with
    | none =>
      simp only [lib, libRealloc, libMalloc, Option.some.injEq] at e
      split at e <;> (injection e with e1 e2; subst e1; simp [Heap.put, Heap.tick])
    | some a =>
      simp only [lib, libRealloc, Option.bind_eq_bind] at e
      cases hb : (h.blocks[a]?).join with
      | none => simp [hb] at e
      | some b =>
        have hf : h.tick.free a = some { h.tick with blocks := h.blocks.set a none } := by
          have : h.blocks[a]? = some (some b) := by
            cases hx : h.blocks[a]? with
            | none => simp [hx] at hb
            | some y => simp [hx] at hb; simp [hb]
          simp [Heap.free, Heap.tick, this]
        rw [hb] at e
        simp only [Option.bind_some, hf] at e
        split at e
        · simp only [Option.some.injEq] at e
          injection e with e1 e2; subst e1; simp [Heap.put, Heap.tick]
        · split at e <;> (simp only [Option.some.injEq] at e; injection e with e1 e2; subst e1; simp [Heap.tick])
  | strdup str =>
    simp only [lib, libStrdup, Option.bind_eq_bind] at e
    obtain ⟨l, _, e⟩ := Option.bind_eq_some_iff.1 e
    split at e
    · obtain ⟨d, _, e⟩ := Option.bind_eq_some_iff.1 e
      simp only [Option.some.injEq] at e
      injection e with e1 e2; subst e1; simp [Heap.put, Heap.tick]
    · simp only [Option.some.injEq] at e
      injection e with e1 e2; subst e1; simp [Heap.tick]
  | strndup str n =>
    simp only [lib, libStrndup, Option.bind_eq_bind] at e
    obtain ⟨l, _, e⟩ := Option.bind_eq_some_iff.1 e
    split at e
    · obtain ⟨d, _, e⟩ := Option.bind_eq_some_iff.1 e
      obtain ⟨d', _, e⟩ := Option.bind_eq_some_iff.1 e
      simp only [Option.some.injEq] at e
      injection e with e1 e2; subst e1; simp [Heap.put, Heap.tick]
    · simp only [Option.some.injEq] at e
      injection e with e1 e2; subst e1; simp [Heap.tick]
  | memdup data size =>
    simp only [lib, libMemdup] at e
    split at e
    · obtain ⟨d, _, e⟩ := Option.bind_eq_some_iff.1 e
      simp only [Option.some.injEq] at e
      injection e with e1 e2; subst e1; simp [Heap.put, Heap.tick]
    · simp only [Option.some.injEq] at e
      injection e with e1 e2; subst e1; simp [Heap.tick]

theorem free_grows (h h' : Heap) (a : Nat) (e : h.free a = some h') : h'.blocks.length = h.blocks.length := by
  unfold Heap.free at e
  split at e
  · simp only [Option.some.injEq] at e; subst e; simp
  · simp at e

theorem acts_grows (grant : Nat → Bool) : ∀ (l : List Act) (s s' : Proc), acts grant s l = some (.returns s' ()) →
    s.heap.blocks.length ≤ s'.heap.blocks.length := by
  intro l
  induction l with
  | nil => intro s s' e; simp [acts] at e; simp [e]
  | cons x l ih =>
    intro s s' e
    cases x with
    | module => simp [acts] at e
    | request r =>
      simp only [acts, Option.bind_eq_bind] at e
      obtain ⟨⟨h, p⟩, e1, e⟩ := Option.bind_eq_some_iff.1 e
      have := lib_grows grant _ _ _ _ e1
      simp only at e
      split at e
      · simp at e
      · have := ih _ _ e
        simp only at this
        omega

theorem acts_no_exit (grant : Nat → Bool) : ∀ (l : List Act) (s s' : Proc) (c : Nat), acts grant s l ≠ some (.exits s' c) := by
  intro l
  induction l with
  | nil => intro s s' c e; simp [acts] at e
  | cons x l ih =>
    intro s s' c e
    cases x with
    | module => simp [acts] at e
    | request r =>
      simp only [acts, Option.bind_eq_bind] at e
      obtain ⟨⟨h, p⟩, e1, e⟩ := Option.bind_eq_some_iff.1 e
      simp only at e
      split at e
      · simp at e
      · exact ih _ _ _ e

theorem loop_grows (grant : Nat → Bool) : ∀ (l : List (Nat × Fn)) (s s' : Proc), loop grant s l = some (.returns s' ()) →
    s.heap.blocks.length ≤ s'.heap.blocks.length ∧ s'.fns = [] ∧ s'.held = false := by
  intro l
  induction l with
  | nil => intro s s' e; simp [loop] at e; subst e; simp
  | cons x l ih =>
    obtain ⟨node, f⟩ := x
    intro s s' e
    simp only [loop, Option.bind_eq_bind] at e
    obtain ⟨en, e1, e⟩ := Option.bind_eq_some_iff.1 e
    cases en with
    | exits s1 c => simp at e
    | hangs s1 => simp at e
    | returns s1 u =>
      have h1 := acts_grows grant _ _ _ e1
      simp only at e
      obtain ⟨h, e2, e⟩ := Option.bind_eq_some_iff.1 e
      have h2 := free_grows _ _ _ e2
      have h3 := ih _ _ e
      simp only at h1 h2 h3
      exact ⟨by omega, h3.2⟩

/-- What holds between two calls. -/
structure Inv (ops : List Op) (xs : List (Option Nat)) (s : Proc) : Prop where
  free : s.held = false
  fns : s.fns.map Prod.snd = waiting ops
  nodes : ∀ a ∈ s.fns.map Prod.fst, (∃ b, s.heap.blocks[a]? = some (some b)) ∧ some a ∉ xs
  nodup : (s.fns.map Prod.fst).Nodup
  known : ∀ a, some a ∈ xs → a < s.heap.blocks.length

theorem waiting_snoc (ops : List Op) (op : Op) : waiting (ops ++ [op]) = match op with
    | .register f => f :: waiting ops
    | .call => []
    | _ => waiting ops := by
  unfold waiting
  rw [List.foldl_append]
  cases op <;> rfl

theorem request_granted {grant : Nat → Bool} {s : Proc} {r : Req} (hr : Readable r)
    (hl : ∀ a, resizes r = some a → ∃ b, s.heap.blocks[a]? = some (some b)) (hg : Fits r ∧ grant s.heap.calls = true) :
    request grant s r = some (.returns { s with heap := ⟨given s.heap r ++ [some (content (oldBlock s.heap r) r)], s.heap.calls + 1⟩ } (some s.heap.blocks.length)) := by
  simp [request, lib_granted grant s.heap r hr hl hg.1 hg.2]

theorem request_zero {grant : Nat → Bool} {s : Proc} {r : Req} (hr : Readable r)
    (hl : ∀ a, resizes r = some a → ∃ b, s.heap.blocks[a]? = some (some b)) (hg : ¬ (Fits r ∧ grant s.heap.calls = true)) (h0 : asks r = 0) :
    request grant s r = some (.returns { s with heap := ⟨given s.heap r, s.heap.calls + 1⟩ } none) := by
  simp [request, lib_refused grant s.heap r hr hl hg, check_iff, h0]

theorem request_refused {grant : Nat → Bool} {s : Proc} {r : Req} (hr : Readable r)
    (hl : ∀ a, resizes r = some a → ∃ b, s.heap.blocks[a]? = some (some b)) (hg : ¬ (Fits r ∧ grant s.heap.calls = true)) (h0 : asks r ≠ 0) :
    request grant s r = doCleanupAndExit grant { s with heap := ⟨s.heap.blocks, s.heap.calls + 1⟩, err := s.err ++ message r } 255 := by
  simp [request, lib_refused grant s.heap r hr hl hg, check_iff, h0, report_eq]

theorem exit_not_returns {α : Type} (grant : Nat → Bool) (s s' : Proc) (c : Nat) (x : α) : doCleanupAndExit grant s c ≠ some (.returns s' x) := by
  intro h
  simp only [doCleanupAndExit, Option.bind_eq_bind] at h
  obtain ⟨e, _, h⟩ := Option.bind_eq_some_iff.1 h
  cases e <;> simp at h

theorem given_live {h : Heap} {r : Req} {a : Nat} (hne : resizes r ≠ some a) : (given h r)[a]? = h.blocks[a]? := by
  unfold given
  cases hr : resizes r with
  | none => rfl
  | some c =>
    rw [hr] at hne
    exact List.getElem?_set_ne fun e => hne (by rw [e])

theorem given_length (h : Heap) (r : Req) : (given h r).length = h.blocks.length := by
  unfold given
  cases resizes r <;> simp

theorem inv_request {grant : Nat → Bool} {ops : List Op} {xs : List (Option Nat)} {s s' : Proc} {r : Req} {x : Option Nat} (i : Inv ops xs s)
    (hp : Proper s xs (.request r)) (h : request grant s r = some (.returns s' x)) : Inv (ops ++ [.request r]) (xs ++ [x]) s' := by
  obtain ⟨hr, hl⟩ := hp
  have hl' := fun a ha => (hl a ha).2
  have hnode : ∀ a ∈ s.fns.map Prod.fst, resizes r ≠ some a := fun a ha e => (i.nodes a ha).2 (hl a e).1
  have hlt : ∀ a ∈ s.fns.map Prod.fst, a < s.heap.blocks.length := by
    intro a ha
    obtain ⟨⟨b, hb⟩, _⟩ := i.nodes a ha
    exact (List.getElem?_eq_some_iff.1 hb).1
  by_cases hg : Fits r ∧ grant s.heap.calls = true
  · rw [request_granted hr hl' hg] at h
    simp only [Option.some.injEq, Ending.returns.injEq] at h
    obtain ⟨rfl, rfl⟩ := h
    refine ⟨i.free, by rw [waiting_snoc]; exact i.fns, ?_, i.nodup, ?_⟩
    · intro a ha
      have := hlt a ha
      refine ⟨?_, ?_⟩
      · simp only
        rw [List.getElem?_append_left (by rw [given_length]; exact this), given_live (hnode a ha)]
        exact (i.nodes a ha).1
      · have := (i.nodes a ha).2
        simp
        exact ⟨this, by omega⟩
    · intro a ha
      simp only [List.length_append, given_length, List.length_cons, List.length_nil]
      simp at ha
      rcases ha with ha | ha
      · have := i.known a ha; omega
      · omega
  · by_cases h0 : asks r = 0
    · rw [request_zero hr hl' hg h0] at h
      simp only [Option.some.injEq, Ending.returns.injEq] at h
      obtain ⟨rfl, rfl⟩ := h
      refine ⟨i.free, by rw [waiting_snoc]; exact i.fns, ?_, i.nodup, ?_⟩
      · intro a ha
        refine ⟨by simp only; rw [given_live (hnode a ha)]; exact (i.nodes a ha).1, by simpa using (i.nodes a ha).2⟩
      · intro a ha
        simp only [given_length]
        simp at ha
        exact i.known a ha
    · rw [request_refused hr hl' hg h0] at h
      exact absurd h (exit_not_returns _ _ _ _ _)

theorem held_exit_hangs {α : Type} {grant : Nat → Bool} {s : Proc} {c : Nat} (h : s.held = true) : doCleanupAndExit grant s c = some (.hangs s : Ending α) := by
  simp [doCleanupAndExit, callCleanup, h]

theorem register_eq {grant : Nat → Bool} {s : Proc} {f : Fn} (h : s.held = false) : register grant s f =
    if grant s.heap.calls = true then
      some (.returns { s with heap := ⟨s.heap.blocks ++ [some (List.replicate 16 none)], s.heap.calls + 1⟩, fns := (s.heap.blocks.length, f) :: s.fns, held := false } ())
    else some (.hangs { s with heap := ⟨s.heap.blocks, s.heap.calls + 1⟩, err := s.err ++ message (.malloc 16), held := true }) := by
  have hr : Readable (.malloc 16) := trivial
  have hl : ∀ a, resizes (.malloc 16) = some a → ∃ b, s.heap.blocks[a]? = some (some b) := by simp [resizes]
  by_cases hg : grant s.heap.calls = true
  · have e := request_granted (s := { s with held := true }) hr hl ⟨trivial, hg⟩
    simp only [register, h, e, hg, Option.bind_eq_bind, Option.bind_some]
    simp [given, resizes, content]
  · have e := request_refused (s := { s with held := true }) (grant := grant) hr hl (fun x => hg x.2) (by simp [asks])
    rw [held_exit_hangs rfl] at e
    simp only [register, h, e, hg, Option.bind_eq_bind, Option.bind_some]
    simp

theorem reach_inv {grant : Nat → Bool} {ops : List Op} {xs : List (Option Nat)} {s : Proc} (h : Reach grant ops xs s) : Inv ops xs s := by
  induction h with
  | init => exact ⟨rfl, rfl, by simp [init], by simp [init], by simp⟩
  | step ops xs s s' op x _ hp hs i =>
    cases op with
    | request r => exact inv_request i hp hs
    | free a =>
      obtain ⟨hx, b, hb⟩ := hp
      simp only [Alloc.step, Heap.free, hb, Option.bind_eq_bind, Option.bind_some, Option.some.injEq, Ending.returns.injEq] at hs
      obtain ⟨rfl, rfl⟩ := hs
      refine ⟨i.free, by rw [waiting_snoc]; exact i.fns, ?_, i.nodup, ?_⟩
      · intro c hc
        have hne : a ≠ c := fun e => (i.nodes c hc).2 (e ▸ hx)
        simp only [List.getElem?_set_ne hne]
        exact ⟨(i.nodes c hc).1, by simpa using (i.nodes c hc).2⟩
      · intro c hc
        simp at hc
        simpa using i.known c hc
    | register f =>
      simp only [Alloc.step, register_eq i.free, Option.bind_eq_bind] at hs
      split at hs
      · simp only [Option.bind_some, Option.some.injEq, Ending.returns.injEq] at hs
        obtain ⟨rfl, rfl⟩ := hs
        have hlt : ∀ a ∈ s.fns.map Prod.fst, a < s.heap.blocks.length := by
          intro a ha
          obtain ⟨⟨b, hb⟩, _⟩ := i.nodes a ha
          exact (List.getElem?_eq_some_iff.1 hb).1
        refine ⟨rfl, by rw [waiting_snoc]; simp [i.fns], ?_, ?_, ?_⟩
        · intro c hc
          simp only [List.map_cons, List.mem_cons] at hc
          rcases hc with rfl | hc
          · exact ⟨⟨List.replicate 16 none, by simp⟩, fun hm => by
              simp at hm
              exact absurd (i.known _ hm) (by omega)⟩
          · refine ⟨?_, by simpa using (i.nodes c hc).2⟩
            simp only [List.getElem?_append_left (hlt c hc)]
            exact (i.nodes c hc).1
        · simp only [List.map_cons, List.nodup_cons]
          exact ⟨fun hm => absurd (hlt _ hm) (by omega), i.nodup⟩
        · intro c hc
          simp at hc
          have := i.known c hc
          simp; omega
      · simp at hs
    | call =>
      simp only [Alloc.step, callCleanup, i.free, Bool.false_eq_true, if_false, Option.bind_eq_bind] at hs
      obtain ⟨e, he, hs⟩ := Option.bind_eq_some_iff.1 hs
      cases e with
      | exits => simp at hs
      | hangs => simp at hs
      | returns s1 u =>
        simp only [Option.some.injEq, Ending.returns.injEq] at hs
        obtain ⟨rfl, rfl⟩ := hs
        obtain ⟨h1, h2, h3⟩ := loop_grows grant _ _ _ he
        refine ⟨h3, by rw [waiting_snoc]; simp [h2], by simp [h2], by simp [h2], ?_⟩
        intro c hc
        simp at hc
        have := i.known c hc
        simp only at h1
        omega
    | exit c => exact absurd hs (exit_not_returns _ _ _ _ _)

theorem acts_quiet (grant : Nat → Bool) : ∀ (l : List Act) (s : Proc), (∀ act ∈ l, ∃ r, act = .request r ∧ Readable r ∧ Fits r ∧ resizes r = none) →
    (∀ k, s.heap.calls ≤ k → grant k = true) → ∃ extra n, acts grant s l = some (.returns { s with heap := ⟨s.heap.blocks ++ extra, s.heap.calls + n⟩ } ()) := by
  intro l
  induction l with
  | nil => intro s _ _; exact ⟨[], 0, by simp [acts]⟩
  | cons x l ih =>
    intro s hq hg
    obtain ⟨r, rfl, hr, hf, hn⟩ := hq x (by simp)
    have hl : ∀ a, resizes r = some a → ∃ b, s.heap.blocks[a]? = some (some b) := by simp [hn]
    have e := lib_granted grant s.heap r hr hl hf (hg _ (Nat.le_refl _))
    obtain ⟨extra, n, e2⟩ := ih { s with heap := ⟨given s.heap r ++ [some (content (oldBlock s.heap r) r)], s.heap.calls + 1⟩ }
      (fun act ha => hq act (by simp [ha])) (fun k hk => hg k (by simp only at hk; omega))
    refine ⟨[some (content (oldBlock s.heap r) r)] ++ extra, 1 + n, ?_⟩
    simp only [acts, e, Option.bind_eq_bind, Option.bind_some]
    simp only [reduceCtorEq, false_and, if_false, e2]
    simp [given, hn, Nat.add_assoc]

theorem loop_quiet (grant : Nat → Bool) (k0 : Nat) : ∀ (l : List (Nat × Fn)) (s : Proc),
    (∀ f ∈ l.map Prod.snd, f.acts = [] ∨ (Quiet f ∧ ∀ k, k0 ≤ k → grant k = true)) → k0 ≤ s.heap.calls →
    (∀ a ∈ l.map Prod.fst, ∃ b, s.heap.blocks[a]? = some (some b)) → (l.map Prod.fst).Nodup →
    ∃ h, loop grant s l = some (.returns { s with heap := h, fns := [], held := false, ran := s.ran ++ (l.map Prod.snd).map Fn.id } ()) := by
  intro l
  induction l with
  | nil => intro s _ _ _ _; exact ⟨s.heap, by simp [loop]⟩
  | cons x l ih =>
    obtain ⟨node, f⟩ := x
    intro s hq hk hn hd
    have ha : ∃ extra n, acts grant { s with ran := s.ran ++ [f.id] } f.acts =
        some (.returns { s with ran := s.ran ++ [f.id], heap := ⟨s.heap.blocks ++ extra, s.heap.calls + n⟩ } ()) := by
      rcases hq f (by simp) with h | ⟨h, hg⟩
      · exact ⟨[], 0, by simp [h, acts]⟩
      · exact acts_quiet grant f.acts _ h (fun k hk' => hg k (by simp only at hk'; omega))
    obtain ⟨extra, n, ha⟩ := ha
    obtain ⟨b, hb⟩ := hn node (by simp)
    have hlt := (List.getElem?_eq_some_iff.1 hb).1
    have hb' : (s.heap.blocks ++ extra)[node]? = some (some b) := by rw [List.getElem?_append_left hlt, hb]
    simp only [List.map_cons, List.nodup_cons] at hd
    obtain ⟨h, e⟩ := ih { s with ran := s.ran ++ [f.id], heap := ⟨(s.heap.blocks ++ extra).set node none, s.heap.calls + n⟩ }
      (fun f hf => hq f (by simp only [List.map_cons, List.mem_cons]; exact .inr hf)) (by simp only; omega)
      (fun a ha' => by
        have hne : node ≠ a := fun e => hd.1 (e ▸ ha')
        obtain ⟨b, hb⟩ := hn a (by simp only [List.map_cons, List.mem_cons]; exact .inr ha')
        refine ⟨b, ?_⟩
        simp only [List.getElem?_set_ne hne]
        rw [List.getElem?_append_left (List.getElem?_eq_some_iff.1 hb).1, hb]) hd.2
    refine ⟨h, ?_⟩
    simp only [loop, ha, Option.bind_eq_bind, Option.bind_some, Heap.free, hb', e]
    simp

theorem cleanup_runs {grant : Nat → Bool} {ops : List Op} {xs : List (Option Nat)} {s : Proc} (i : Inv ops xs s) (n : Nat) (err : List String)
    (hw : CleanupWorks grant ops (s.heap.calls + n)) :
    ∃ h, callCleanup grant { s with heap := ⟨s.heap.blocks, s.heap.calls + n⟩, err := err } =
      some (.returns ⟨h, err, s.ran ++ (waiting ops).map Fn.id, [], false⟩ ()) := by
  obtain ⟨h, e⟩ := loop_quiet grant (s.heap.calls + n) s.fns { s with heap := ⟨s.heap.blocks, s.heap.calls + n⟩, err := err, held := true }
    (fun f hf => hw f (by rw [i.fns] at hf; exact hf)) (Nat.le_refl _) (fun a ha => (i.nodes a ha).1) i.nodup
  refine ⟨h, ?_⟩
  simp only [callCleanup, i.free, Bool.false_eq_true, if_false, e, i.fns]

theorem exit_runs {α : Type} {grant : Nat → Bool} {ops : List Op} {xs : List (Option Nat)} {s : Proc} (i : Inv ops xs s) (n : Nat) (err : List String) (code : Nat)
    (hw : CleanupWorks grant ops (s.heap.calls + n)) :
    ∃ h, doCleanupAndExit grant { s with heap := ⟨s.heap.blocks, s.heap.calls + n⟩, err := err } code =
      some (.exits ⟨h, err, s.ran ++ (waiting ops).map Fn.id, [], false⟩ code : Ending α) := by
  obtain ⟨h, e⟩ := cleanup_runs i n err hw
  exact ⟨h, by simp only [doCleanupAndExit, e, Option.bind_eq_bind, Option.bind_some]⟩

end Alloc

open Alloc

/-- **C185.** A request that returns gives a block at an address not used before, of the size asked for and with the contents due: fresh for `xmalloc`, zero for `xcalloc` (of the true
product, however large its factors), the old contents as far as they go for `xrealloc`, the copy for the others; NULL only if no bytes were asked for. All other blocks
are as before, except that the block resized is given back. -/
theorem C185_what_is_returned (grant : Nat → Bool) (ops : List Op) (xs : List (Option Nat)) (s s' : Proc) (r : Req) (p : Option Nat) (h : Reach grant ops xs s)
    (hp : Proper s xs (.request r)) (hs : step grant s (.request r) = some (.returns s' p)) :
    (p = none → asks r = 0) ∧
    (∀ a, p = some a → s.heap.blocks[a]? = none ∧ some a ∉ xs ∧ ∀ old, (∀ o, resizes r = some o → s.heap.blocks[o]? = some (some old)) →
      s'.heap.blocks[a]? = some (some (content old r)) ∧ (content old r).length = asks r) ∧
    (∀ a, a < s.heap.blocks.length → s'.heap.blocks[a]? = if resizes r = some a then some none else s.heap.blocks[a]?) ∧
    s'.err = s.err ∧ s'.ran = s.ran := by
  have i := reach_inv h
  obtain ⟨hr, hl⟩ := hp
  have hl' := fun a ha => (hl a ha).2
  have hgiven : ∀ a, a < s.heap.blocks.length → (given s.heap r)[a]? = if resizes r = some a then some none else s.heap.blocks[a]? := by
    intro a ha
    split
    · rename_i e
      simp [given, e, ha]
    · rename_i e
      exact given_live e
  by_cases hg : Fits r ∧ grant s.heap.calls = true
  · rw [step, request_granted hr hl' hg] at hs
    simp only [Option.some.injEq, Ending.returns.injEq] at hs
    obtain ⟨rfl, rfl⟩ := hs
    refine ⟨by simp, ?_, ?_, rfl, rfl⟩
    · intro a ha
      simp only [Option.some.injEq] at ha
      subst ha
      refine ⟨by simp, fun hm => absurd (i.known _ hm) (by omega), fun old ho => ?_⟩
      have e : content (oldBlock s.heap r) r = content old r := by
        cases hz : resizes r with
        | none => cases r with
          | realloc p size => simp [resizes] at hz; subst hz; rfl
          | _ => rfl
        | some o => simp [oldBlock, hz, ho o hz]
      refine ⟨?_, ?_⟩
      · simp only [e]
        rw [List.getElem?_append_right (by rw [given_length]; exact Nat.le_refl _)]
        simp [given_length]
      · cases r with
        | malloc => simp [content, asks]
        | calloc => simp [content, asks]
        | realloc p size => cases p <;> simp [content, asks]; omega
        | strdup => simp [content, asks]
        | strndup => simp [content, asks]; omega
        | memdup data size =>
          have : size ≤ data.length := hr
          simp [content, asks]; omega
    · intro a ha
      simp only
      rw [List.getElem?_append_left (by rw [given_length]; exact ha), hgiven a ha]
  · by_cases h0 : asks r = 0
    · rw [step, request_zero hr hl' hg h0] at hs
      simp only [Option.some.injEq, Ending.returns.injEq] at hs
      obtain ⟨rfl, rfl⟩ := hs
      exact ⟨fun _ => h0, by simp, fun a ha => hgiven a ha, rfl, rfl⟩
    · rw [step, request_refused hr hl' hg h0] at hs
      exact absurd hs (exit_not_returns _ _ _ _ _)

/-- **C185.** If the C library grants a request, it returns a block. -/
theorem C185_granted_returns (grant : Nat → Bool) (ops : List Op) (xs : List (Option Nat)) (s : Proc) (r : Req) (_ : Reach grant ops xs s)
    (hp : Proper s xs (.request r)) (hf : Fits r) (hg : grant s.heap.calls = true) : ∃ s' a, step grant s (.request r) = some (.returns s' (some a)) :=
  ⟨_, _, request_granted hp.1 (fun a ha => (hp.2 a ha).2) ⟨hf, hg⟩⟩

/-- **C185.** If it refuses one of no bytes, NULL is returned. -/
theorem C185_refused_nothing (grant : Nat → Bool) (ops : List Op) (xs : List (Option Nat)) (s : Proc) (r : Req) (_ : Reach grant ops xs s)
    (hp : Proper s xs (.request r)) (hg : grant s.heap.calls = false) (h0 : asks r = 0) : ∃ s', step grant s (.request r) = some (.returns s' none) :=
  ⟨_, request_zero hp.1 (fun a ha => (hp.2 a ha).2) (by simp [hg]) h0⟩

/-- **C185.** If it refuses one of at least one byte, or the size does not fit `size_t`, the call does not return: the name of the function and the message are
written to stderr, the cleanup functions waiting are run, last registered first, and the process exits with 255; provided that those functions work without this
module, and are given the memory they ask for. -/
theorem C185_out_of_memory (grant : Nat → Bool) (ops : List Op) (xs : List (Option Nat)) (s : Proc) (r : Req) (h : Reach grant ops xs s)
    (hp : Proper s xs (.request r)) (hg : grant s.heap.calls = false ∨ ¬ Fits r) (h0 : asks r ≠ 0) (hw : CleanupWorks grant ops (s.heap.calls + 1)) :
    ∃ s', step grant s (.request r) = some (.exits s' 255) ∧ s'.err = s.err ++ message r ∧ s'.ran = s.ran ++ (waiting ops).map Fn.id := by
  obtain ⟨hp', e⟩ := exit_runs (reach_inv h) 1 (s.err ++ message r) 255 hw
  refine ⟨⟨hp', s.err ++ message r, s.ran ++ (waiting ops).map Fn.id, [], false⟩, ?_, rfl, rfl⟩
  rw [step, request_refused hp.1 (fun a ha => (hp.2 a ha).2) (by rcases hg with hg | hg <;> simp [hg]) h0]
  exact e

/-- **C185.** The other calls: `DoCleanupAndExit` exits with its code and `CallCleanupFunctions` returns, both after the cleanup functions waiting were run, last registered first;
`RegisterCleanupFunction` returns if it gets memory. -/
theorem C185_cleanup_calls (grant : Nat → Bool) (ops : List Op) (xs : List (Option Nat)) (s : Proc) (h : Reach grant ops xs s) (hw : CleanupWorks grant ops s.heap.calls) :
    (∀ code, ∃ s', step grant s (.exit code) = some (.exits s' code) ∧ s'.err = s.err ∧ s'.ran = s.ran ++ (waiting ops).map Fn.id) ∧
    (∃ s', step grant s .call = some (.returns s' none) ∧ s'.err = s.err ∧ s'.ran = s.ran ++ (waiting ops).map Fn.id) ∧
    (∀ f, grant s.heap.calls = true → ∃ s', step grant s (.register f) = some (.returns s' none) ∧ s'.err = s.err ∧ s'.ran = s.ran) := by
  have i := reach_inv h
  refine ⟨fun code => ?_, ?_, fun f hg => ?_⟩
  · obtain ⟨hp, e⟩ := exit_runs (α := Option Nat) i 0 s.err code hw
    exact ⟨⟨hp, s.err, s.ran ++ (waiting ops).map Fn.id, [], false⟩, e, rfl, rfl⟩
  · obtain ⟨hp, e⟩ := cleanup_runs i 0 s.err hw
    have e : callCleanup grant s = _ := e
    exact ⟨⟨hp, s.err, s.ran ++ (waiting ops).map Fn.id, [], false⟩, by simp [step, e], rfl, rfl⟩
  · exact ⟨{ s with heap := ⟨s.heap.blocks ++ [some (List.replicate 16 none)], s.heap.calls + 1⟩, fns := (s.heap.blocks.length, f) :: s.fns, held := false },
      by simp [step, register_eq i.free, hg], rfl, rfl⟩

/-- **C185**, finding: that a process that runs out of memory ends is false. `RegisterCleanupFunction` asks for memory while it holds the mutex that the cleanup needs; if it is
refused, the message is written and the thread waits for itself for good: no cleanup function is run, whatever was registered before. -/
theorem C185_register_hangs_negated (grant : Nat → Bool) (ops : List Op) (xs : List (Option Nat)) (s : Proc) (f : Fn) (h : Reach grant ops xs s)
    (hg : grant s.heap.calls = false) : ∃ s', step grant s (.register f) = some (.hangs s') ∧ s'.err = s.err ++ message (.malloc 1) ∧ s'.ran = s.ran := by
  exact ⟨{ s with heap := ⟨s.heap.blocks, s.heap.calls + 1⟩, err := s.err ++ message (.malloc 16), held := true },
    by simp [step, register_eq (reach_inv h).free, hg], rfl, rfl⟩

/-- **C185**, finding: so is it when a cleanup function is refused memory: the thread waits for itself for good, and no further function is run. -/
theorem C185_cleanup_function_hangs_negated (grant : Nat → Bool) (ops : List Op) (xs : List (Option Nat)) (s : Proc) (code : Nat) (f : Fn) (rest : List Fn) (r : Req) (more : List Act)
    (h : Reach grant ops xs s) (hw : waiting ops = f :: rest) (hf : f.acts = .request r :: more) (hr : Readable r) (hn : resizes r = none)
    (hg : grant s.heap.calls = false) (h0 : asks r ≠ 0) :
    ∃ s', step grant s (.exit code) = some (.hangs s') ∧ s'.err = s.err ++ message r ∧ s'.ran = s.ran ++ [f.id] := by
  have i := reach_inv h
  have e := i.fns
  rw [hw] at e
  obtain ⟨⟨node, f'⟩, l, hl, h1, h2⟩ := List.map_eq_cons_iff.1 e
  simp only at h1
  subst h1
  have el := lib_refused grant s.heap r hr (by simp [hn]) (by simp [hg])
  refine ⟨⟨⟨s.heap.blocks, s.heap.calls + 1⟩, s.err ++ message r, s.ran ++ [f'.id], s.fns, true⟩, ?_, rfl, rfl⟩
  · simp only [step, doCleanupAndExit, callCleanup, i.free, hl, loop, hf, acts, el, Option.bind_eq_bind, Option.bind_some]
    simp [check_iff, h0, report_eq]

/-- Every ending without undefined behaviour, for programs whose cleanup functions leave these modules alone: a call hangs only if it is `RegisterCleanupFunction`, refused. -/
theorem C185_hangs_only_there (grant : Nat → Bool) (ops : List Op) (xs : List (Option Nat)) (s : Proc) (op : Op) (h : Reach grant ops xs s) (hp : Proper s xs op)
    (hq : ∀ f ∈ waiting ops, f.acts = []) :
    step grant s op ≠ none ∧ ((∃ s', step grant s op = some (.hangs s')) ↔ ∃ f, op = .register f ∧ grant s.heap.calls = false) := by
  have hw : ∀ k, CleanupWorks grant ops k := fun k f hf => .inl (hq f hf)
  cases op with
  | request r =>
    by_cases hg : Fits r ∧ grant s.heap.calls = true
    · simp [step, request_granted hp.1 (fun a ha => (hp.2 a ha).2) hg]
    · by_cases h0 : asks r = 0
      · simp [step, request_zero hp.1 (fun a ha => (hp.2 a ha).2) hg h0]
      · obtain ⟨_, e, _⟩ := C185_out_of_memory grant ops xs s r h hp (by
          by_cases hf : Fits r
          · exact .inl (by simpa [hf] using hg)
          · exact .inr hf) h0 (hw _)
        simp [e]
  | free a =>
    obtain ⟨hx, b, hb⟩ := hp
    simp [step, Heap.free, hb]
  | register f =>
    rw [step, register_eq (reach_inv h).free]
    by_cases hg : grant s.heap.calls = true
    · simp [hg]
    · simp [hg]
  | call =>
    obtain ⟨_, ⟨_, e, _⟩, _⟩ := C185_cleanup_calls grant ops xs s h (hw _)
    simp [e]
  | exit code =>
    obtain ⟨e, _⟩ := C185_cleanup_calls grant ops xs s h (hw _)
    obtain ⟨_, e, _⟩ := e code
    simp [e]

/-! Concrete cases: two functions registered, a block got and resized, then the fifth allocation is refused. -/
section
def five (k : Nat) : Bool := k ≠ 4

theorem five_reach : ∃ s, Reach five [.register ⟨1, []⟩, .register ⟨2, [.request (.calloc 2 3)]⟩, .request (.strdup [104, 105, 0, 9]), .request (.realloc (some 2) 5)]
    [none, none, some 2, some 3] s ∧ s.heap.calls = 4 ∧ s.heap.blocks.drop 2 = [none, some [some 104, some 105, some 0, none, none]] ∧
      s.err = [] ∧ s.ran = [] := by
  have h0 : Reach five [] [] Alloc.init := .init
  have h1 := Reach.step _ _ _ _ (.register ⟨1, []⟩) none h0 trivial rfl
  have h2 := Reach.step _ _ _ _ (.register ⟨2, [.request (.calloc 2 3)]⟩) none h1 trivial rfl
  have h3 := Reach.step _ _ _ _ (.request (.strdup [104, 105, 0, 9])) (some 2) h2 ⟨by simp [Readable], by simp [resizes]⟩ rfl
  have h4 := Reach.step _ _ _ _ (.request (.realloc (some 2) 5)) (some 3) h3 ⟨trivial, by
    intro a ha
    simp only [resizes, Option.some.injEq] at ha
    subst ha
    exact ⟨by simp, _, rfl⟩⟩ rfl
  exact ⟨_, h4, rfl, rfl, rfl, rfl⟩

example : ∃ s s', step five s (.request (.memdup [1, 2] 2)) = some (.exits s' 255) ∧ s'.err = ["xmemdup", "CRITICAL: Unable to allocate memory\n"] ∧ s'.ran = [2, 1] := by
  obtain ⟨s, h, hc, -, he, hr⟩ := five_reach
  obtain ⟨s', e, h1, h2⟩ := C185_out_of_memory five _ _ s (.memdup [1, 2] 2) h ⟨by simp [Readable], by simp [resizes]⟩ (.inl (by rw [hc]; rfl)) (by simp [asks]) (by
    intro f hf
    simp only [waiting, List.foldl_cons, List.foldl_nil, List.mem_cons, List.not_mem_nil, or_false] at hf
    rcases hf with rfl | rfl
    · refine .inr ⟨?_, fun i hi => by rw [hc] at hi; simp [five]; omega⟩
      intro act ha
      simp only [List.mem_singleton] at ha
      exact ⟨_, ha, trivial, by simp [Fits], rfl⟩
    · exact .inl rfl)
  exact ⟨s, s', e, by rw [h1, he]; rfl, by rw [h2, hr]; rfl⟩

/-- The same process, had it registered a function at that point. -/
example : ∃ s s', step five s (.register ⟨3, []⟩) = some (.hangs s') ∧ s'.ran = [] := by
  obtain ⟨s, h, hc, -, he, hr⟩ := five_reach
  obtain ⟨s', e, _, h2⟩ := C185_register_hangs_negated five _ _ s ⟨3, []⟩ h (by rw [hc]; rfl)
  exact ⟨s, s', e, by rw [h2, hr]⟩

/-- Had it exited at that point: function 2 asks for memory, and function 1 is never run. -/
example : ∃ s s', step five s (.exit 0) = some (.hangs s') ∧ s'.ran = [2] := by
  obtain ⟨s, h, hc, -, he, hr⟩ := five_reach
  obtain ⟨s', e, _, h2⟩ := C185_cleanup_function_hangs_negated five _ _ s 0 ⟨2, [.request (.calloc 2 3)]⟩ [⟨1, []⟩] (.calloc 2 3) [] h rfl rfl trivial rfl
    (by rw [hc]; rfl) (by simp [asks])
  exact ⟨s, s', e, by rw [h2, hr]; rfl⟩

/-- A product that does not fit is refused, not wrapped. -/
example (xs : List (Option Nat)) (ops : List Op) (s : Proc) (h : Reach (fun _ => true) ops xs s) (hq : ∀ f ∈ waiting ops, f.acts = []) :
    ∃ s', step (fun _ => true) s (.request (.calloc 4294967296 4294967296)) = some (.exits s' 255) := by
  obtain ⟨s', e, _⟩ := C185_out_of_memory _ ops xs s (.calloc 4294967296 4294967296) h ⟨trivial, by simp [resizes]⟩ (.inr (by simp [Fits])) (by simp [asks])
    (fun f hf => .inl (hq f hf))
  exact ⟨s', e⟩
end
