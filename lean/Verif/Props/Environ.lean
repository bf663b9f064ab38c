import Verif.Model.Environ
import Verif.Spec.Environ
/-! # C136: the environment -/
namespace Environ
open EnvironSpec

theorem hasEq_false {n : Bytes} (h : (61 : UInt8) ∉ n) : hasEq n = false := by
  simp only [hasEq, List.any_eq_false, beq_iff_eq]
  exact fun x hx e => h (e ▸ hx)

theorem hasEq_true {n : Bytes} (h : (61 : UInt8) ∈ n) : hasEq n = true := by
  simp only [hasEq, List.any_eq_true, beq_iff_eq]
  exact ⟨61, h, rfl⟩

theorem isEntry_true {n e : Bytes} (h : Names e n) : isEntry n e = some true := by
  rcases h with rfl | ⟨w, rfl⟩ <;> simp [isEntry]

theorem isEntry_false {n e : Bytes} (h0 : (0 : UInt8) ∉ e) (hN : ¬Names e n) : isEntry n e = some false := by
  unfold isEntry
  split
  · rename_i h
    obtain ⟨w, rfl⟩ : ∃ w, e = n ++ w := ⟨e.drop n.length, by rw [← List.take_append_drop n.length e, h]; simp⟩
    cases w with
    | nil => exact absurd (Or.inl (by simp)) hN
    | cons c w =>
      have hc : c ≠ 0 := by intro hc; simp [hc] at h0
      by_cases h61 : c = 61
      · subst h61
        exact absurd (Or.inr ⟨w, by simp⟩) hN
      · simp [hc, h61]
  · rfl

theorem find_first {n e : Bytes} (hN : Names e n) (tl : Arr) : ∀ (a : List Bytes) (i : Nat), (∀ x ∈ a, (0 : UInt8) ∉ x ∧ ¬Names x n) → find n (a.map some ++ some e :: tl) i = some (i + a.length) := by
  intro a
  induction a with
  | nil => intro i _; simp [find, isEntry_true hN]
  | cons x a ih =>
    intro i h
    obtain ⟨h1, h2⟩ := h x (by simp)
    simp only [List.map_cons, List.cons_append, find, isEntry_false h1 h2, Option.bind_eq_bind, Option.bind_some, Bool.false_eq_true, if_false]
    rw [ih (i + 1) (fun x hx => h x (by simp [hx])), List.length_cons]
    congr 1
    omega

theorem find_none (n : Bytes) (junk : Arr) : ∀ (a : List Bytes) (i : Nat), (∀ x ∈ a, (0 : UInt8) ∉ x ∧ ¬Names x n) → find n (a.map some ++ none :: junk) i = some (i + a.length) := by
  intro a
  induction a with
  | nil => intro i _; rfl
  | cons x a ih =>
    intro i h
    obtain ⟨h1, h2⟩ := h x (by simp)
    simp only [List.map_cons, List.cons_append, find, isEntry_false h1 h2, Option.bind_eq_bind, Option.bind_some, Bool.false_eq_true, if_false]
    rw [ih (i + 1) (fun x hx => h x (by simp [hx])), List.length_cons]
    congr 1
    omega

theorem first_or_none (P : Bytes → Prop) : ∀ es : List Bytes, (∀ e ∈ es, ¬P e) ∨ ∃ a e b, es = a ++ e :: b ∧ P e ∧ ∀ x ∈ a, ¬P x := by
  intro es
  induction es with
  | nil => simp
  | cons e es ih =>
    by_cases h : P e
    · exact Or.inr ⟨[], e, es, rfl, h, by simp⟩
    · rcases ih with ih | ⟨a, e', b, rfl, h1, h2⟩
      · exact Or.inl (by simpa [h] using ih)
      · exact Or.inr ⟨e :: a, e', b, rfl, h1, by simpa [h] using h2⟩

/-- A name without '=' can be told from what follows the first '='. -/
theorem append_eq_inj {n n' v v' : Bytes} (h : (61 : UInt8) ∉ n) (h' : (61 : UInt8) ∉ n') (he : n ++ [61] ++ v = n' ++ [61] ++ v') : n = n' ∧ v = v' := by
  induction n generalizing n' with
  | nil =>
    cases n' with
    | nil => simpa using he
    | cons c n' => simp at he; simp [← he.1] at h'
  | cons c n ih =>
    cases n' with
    | nil => simp at he; simp [he.1] at h
    | cons c' n' =>
      simp only [List.cons_append, List.cons.injEq] at he
      obtain ⟨h1, h2⟩ := ih (by simp at h; exact h.2) (by simp at h'; exact h'.2) he.2
      exact ⟨by rw [he.1, h1], h2⟩

theorem value_skip {e n v : Bytes} (hno : ∀ w, e ≠ n ++ [61] ++ w) (b : List Bytes) : ∀ a : List Bytes, Value (a ++ e :: b) n v ↔ Value (a ++ b) n v := by
  intro a
  induction a with
  | nil =>
    refine ⟨fun h => ?_, fun h => .there hno h⟩
    generalize hl : [] ++ e :: b = l at h
    cases h with
    | here => simp at hl; exact absurd hl.1 (by simpa using hno _)
    | there _ h => simp at hl; rw [← hl.2] at h; exact h
  | cons x a ih =>
    constructor
    · intro h
      generalize hl : x :: a ++ e :: b = l at h
      cases h with
      | here => simp at hl; rw [List.cons_append, hl.1]; simpa using (Value.here : Value ((n ++ [61] ++ v) :: (a ++ b)) n v)
      | there h1 h2 => simp at hl; rw [← hl.2] at h2; rw [List.cons_append, hl.1]; exact .there h1 (ih.1 h2)
    · intro h
      generalize hl : x :: a ++ b = l at h
      cases h with
      | here => simp at hl; rw [List.cons_append, hl.1]; simpa using (Value.here : Value ((n ++ [61] ++ v) :: (a ++ e :: b)) n v)
      | there h1 h2 => simp at hl; rw [← hl.2] at h2; rw [List.cons_append, hl.1]; exact .there h1 (ih.2 h2)

theorem shift_eq (junk : Arr) : ∀ (es : List Bytes), shift (es.map some ++ none :: junk) = some (match es with | [] => none :: junk | _ :: es => es.map some ++ none :: none :: junk) := by
  intro es
  induction es with
  | nil => rfl
  | cons e es ih =>
    cases es with
    | nil => simp [shift]
    | cons e' es =>
      simp only [List.map_cons, List.cons_append] at ih ⊢
      rw [shift, ih]
      simp

/-- Unsetting a variable: the first text naming it goes, the others stay in order, and the array stays terminated. -/
theorem C136_unsetenv (n : Bytes) (hn : ValidName n) (es : List Bytes) (h0 : ∀ e ∈ es, (0 : UInt8) ∉ e) (junk : Arr) :
    ∃ (es' : List Bytes) (junk' : Arr), unsetenv (some n) (es.map some ++ none :: junk) = some (0, es'.map some ++ none :: junk') ∧ SameOthers es es' n ∧
      (((∀ e ∈ es, ¬Names e n) ∧ es' = es) ∨ (∃ a e b, es = a ++ e :: b ∧ Names e n ∧ (∀ x ∈ a, ¬Names x n) ∧ es' = a ++ b)) := by
  rcases first_or_none (Names · n) es with h | ⟨a, e, b, rfl, he, ha⟩
  · refine ⟨es, junk, ?_, fun _ _ _ _ => Iff.rfl, Or.inl ⟨h, rfl⟩⟩
    simp only [unsetenv, hn.1, hasEq_false hn.2.1, or_self, Bool.false_eq_true, if_false, find_none n junk es 0 (fun x hx => ⟨h0 x hx, h x hx⟩), Nat.zero_add, Option.bind_eq_bind, Option.bind_some]
    have e1 : (es.map some ++ none :: junk).drop es.length = (([] : List Bytes).map some ++ none :: junk) := by
      rw [List.drop_left' (by simp)]; rfl
    have e2 : (es.map some ++ none :: junk).take es.length = es.map some := List.take_left' (by simp)
    simp only [e1, e2, shift_eq, Option.bind_some]
  · refine ⟨a ++ b, none :: junk, ?_, ?_, Or.inr ⟨a, e, b, rfl, he, ha, rfl⟩⟩
    · have hf := find_first he (b.map some ++ none :: junk) a 0 (fun x hx => ⟨h0 x (by simp [hx]), ha x hx⟩)
      have e0 : (a ++ e :: b).map some ++ none :: junk = a.map some ++ some e :: (b.map some ++ none :: junk) := by simp
      have e1 : (a.map some ++ some e :: (b.map some ++ none :: junk)).drop a.length = ((e :: b).map some ++ none :: junk) := by
        rw [List.drop_left' (by simp)]; rfl
      have e2 : (a.map some ++ some e :: (b.map some ++ none :: junk)).take a.length = a.map some := List.take_left' (by simp)
      rw [e0]
      simp only [unsetenv, hn.1, hasEq_false hn.2.1, or_self, Bool.false_eq_true, if_false, hf, Nat.zero_add, Option.bind_eq_bind, Option.bind_some, e1, e2, shift_eq]
      simp
    · intro n' v hv' hne
      refine (value_skip ?_ b a).symm
      intro w hw
      rcases he with rfl | ⟨w', rfl⟩
      · rw [hw] at hn; simp [ValidName] at hn
      · exact hne (append_eq_inj hn.2.1 hv'.2.1 hw).1.symm

/-- With no other text naming it the variable is gone. -/
theorem C136_unsetenv_unset (n : Bytes) (hn : ValidName n) (es : List Bytes) (h0 : ∀ e ∈ es, (0 : UInt8) ∉ e) (hone : es.Pairwise fun x y => ¬(Names x n ∧ Names y n)) (junk : Arr) :
    ∃ (es' : List Bytes) (junk' : Arr), unsetenv (some n) (es.map some ++ none :: junk) = some (0, es'.map some ++ none :: junk') ∧ SameOthers es es' n ∧ Unset es' n := by
  obtain ⟨es', junk', h1, h2, h3⟩ := C136_unsetenv n hn es h0 junk
  refine ⟨es', junk', h1, h2, ?_⟩
  rcases h3 with ⟨h3, rfl⟩ | ⟨a, e, b, rfl, h4, h5, rfl⟩
  · exact fun e he w hw => h3 e he (Or.inr ⟨w, hw⟩)
  · intro x hx w hw
    have hxN : Names x n := Or.inr ⟨w, hw⟩
    rcases List.mem_append.1 hx with hx | hx
    · exact h5 x hx hxN
    · have := (List.pairwise_append.1 hone).2.1
      exact (List.pairwise_cons.1 this).1 x hx ⟨h4, hxN⟩

/-- A name that cannot be one is refused and nothing changes. -/
theorem C136_unsetenv_refused (name : Option Bytes) (h : ∀ n, name = some n → n = [] ∨ (61 : UInt8) ∈ n) (env : Arr) : unsetenv name env = some (-1, env) := by
  cases name with
  | none => rfl
  | some n =>
    have : n = [] ∨ hasEq n = true := (h n rfl).imp id hasEq_true
    simp [unsetenv, this]

/-- "A=1", "B=2", "AB=3": unsetting A. -/
example : unsetenv (some [65]) [some [65, 61, 49], some [66, 61, 50], some [65, 66, 61, 51], none] = some (0, [some [66, 61, 50], some [65, 66, 61, 51], none, none]) ∧
    ValidName [65] ∧ ([[65, 61, 49], [66, 61, 50], [65, 66, 61, 51]] : List Bytes).Pairwise fun x y => ¬(Names x [65] ∧ Names y [65]) := by
  refine ⟨by decide, by simp [ValidName], ?_⟩
  simp [Names]

/-! ## setenv_wrapper and putenv_wrapper -/

theorem isPrefixOf_iff (n e : Bytes) : (n ++ [61]).isPrefixOf e = true ↔ ∃ w, e = n ++ [61] ++ w := by
  rw [List.isPrefixOf_iff_prefix]
  exact ⟨fun ⟨w, h⟩ => ⟨w, h.symm⟩, fun ⟨w, h⟩ => ⟨w, h.symm⟩⟩

/-- The library's getenv gives the value. -/
theorem getenv_iff (n v : Bytes) : ∀ es : List Bytes, getenv es n = some v ↔ Value es n v := by
  intro es
  induction es with
  | nil => exact ⟨fun h => by simp [getenv] at h, fun h => by cases h⟩
  | cons e es ih =>
    by_cases h : ∃ w, e = n ++ [61] ++ w
    · obtain ⟨w, rfl⟩ := h
      have : (n ++ [61]).isPrefixOf (n ++ [61] ++ w) = true := (isPrefixOf_iff _ _).2 ⟨w, rfl⟩
      rw [getenv, if_pos this]
      have hd : (n ++ [61] ++ w).drop (n.length + 1) = w := List.drop_left' (by simp)
      rw [hd]
      constructor
      · rintro ⟨⟩; exact .here
      · intro h
        generalize hl : (n ++ [61] ++ w) :: es = l at h
        cases h with
        | here => simp at hl; rw [hl.1]
        | there h1 _ => simp only [List.cons.injEq] at hl; exact absurd hl.1.symm (h1 w)
    · have : ¬(n ++ [61]).isPrefixOf e = true := fun hp => h ((isPrefixOf_iff _ _).1 hp)
      rw [getenv, if_neg this, ih]
      constructor
      · exact fun hv => .there (fun w hw => h ⟨w, hw⟩) hv
      · intro hv
        generalize hl : e :: es = l at hv
        cases hv with
        | here => simp only [List.cons.injEq] at hl; exact absurd ⟨_, hl.1⟩ h
        | there _ h2 => simp only [List.cons.injEq] at hl; rw [hl.2]; exact h2

theorem getenv_none_iff (n : Bytes) : ∀ es : List Bytes, getenv es n = none ↔ Unset es n := by
  intro es
  induction es with
  | nil => simp [getenv, Unset]
  | cons e es ih =>
    unfold getenv
    by_cases h : ∃ w, e = n ++ [61] ++ w
    · rw [if_pos ((isPrefixOf_iff _ _).2 h)]
      obtain ⟨w, hw⟩ := h
      exact ⟨fun h => (by simp at h), fun h => absurd hw (h e (by simp) w)⟩
    · rw [if_neg (fun hp => h ((isPrefixOf_iff _ _).1 hp)), ih]
      constructor
      · intro hu e' he' w hw
        rcases List.mem_cons.1 he' with rfl | he'
        · exact h ⟨w, hw⟩
        · exact hu e' he' w hw
      · exact fun hu e' he' => hu e' (by simp [he'])

theorem putenv_spec {n v : Bytes} (hn : ValidName n) : ∀ es : List Bytes, Value (putenv n v es) n v ∧ SameOthers es (putenv n v es) n := by
  intro es
  have hother : ∀ n', ValidName n' → n' ≠ n → ∀ w', n ++ 61 :: v ≠ n' ++ [61] ++ w' := by
    intro n' hn' hne w' hw
    exact hne (append_eq_inj hn.2.1 hn'.2.1 (by simpa using hw)).1.symm
  have hhere : ∀ l, Value ((n ++ 61 :: v) :: l) n v := by
    intro l
    have : Value ((n ++ [61] ++ v) :: l) n v := .here
    simpa using this
  induction es with
  | nil =>
    refine ⟨hhere _, fun n' v' hn' hne => ⟨fun h => ?_, fun h => by cases h⟩⟩
    have := (value_skip (hother n' hn' hne) [] []).1 h
    exact this
  | cons e es ih =>
    unfold putenv
    by_cases h : ∃ w, e = n ++ [61] ++ w
    · rw [if_pos ((isPrefixOf_iff _ _).2 h)]
      refine ⟨hhere _, fun n' v' hn' hne => ?_⟩
      obtain ⟨w, rfl⟩ := h
      have h1 : ∀ w', n ++ [61] ++ w ≠ n' ++ [61] ++ w' := fun w' hw => hne (append_eq_inj hn.2.1 hn'.2.1 hw).1.symm
      exact (value_skip (hother n' hn' hne) es []).trans (value_skip h1 es []).symm
    · rw [if_neg (fun hp => h ((isPrefixOf_iff _ _).1 hp))]
      refine ⟨.there (fun w hw => h ⟨w, hw⟩) ih.1, fun n' v' hn' hne => ?_⟩
      rw [← getenv_iff, ← getenv_iff, getenv, getenv]
      split
      · rfl
      · rw [getenv_iff, getenv_iff]; exact ih.2 n' v' hn' hne

theorem split_eq {n v : Bytes} (h : (61 : UInt8) ∉ n) : (n ++ 61 :: v).takeWhile (· != 61) = n ∧ ((n ++ 61 :: v).dropWhile (· != 61)).drop 1 = v := by
  have hp : ∀ x ∈ n, (x != 61) = true := fun x hx => by simp; exact fun e => h (e ▸ hx)
  rw [List.takeWhile_append_of_pos hp, List.dropWhile_append_of_pos hp]
  simp

/-- Setting a variable, on every platform: it has the value given, unless it was set and is not to be overwritten; the others are as before. Where the C library has no setenv the text must be shorter than 1024 bytes. -/
theorem C136_setenv (native : Bool) (n v : Bytes) (hn : ValidName n) (ow : Bool) (es : List Bytes) (hlen : native = true ∨ n.length + 1 + v.length < 1024) :
    ∃ es', setenvWrapper native n v ow es = (0, es') ∧ SameOthers es es' n ∧
      (ow = true ∨ Unset es n → Value es' n v) ∧ (ow = false → ¬Unset es n → es' = es) := by
  have key : ∀ es', (if ow = false ∧ getenv es n ≠ none then (((0 : Int), es) : Int × List Bytes) else (0, putenv n v es)) = (0, es') →
      SameOthers es es' n ∧ (ow = true ∨ Unset es n → Value es' n v) ∧ (ow = false → ¬Unset es n → es' = es) := by
    intro es' he
    split at he
    · rename_i hc
      simp only [Prod.mk.injEq, true_and] at he
      subst he
      rw [ne_eq, getenv_none_iff] at hc
      refine ⟨fun _ _ _ _ => Iff.rfl, fun h => ?_, fun _ _ => rfl⟩
      rcases h with h | h
      · simp [h] at hc
      · exact absurd h hc.2
    · rename_i hc
      simp only [Prod.mk.injEq, true_and] at he
      subst he
      rw [ne_eq, getenv_none_iff] at hc
      exact ⟨(putenv_spec hn es).2, fun _ => (putenv_spec hn es).1, fun h1 h2 => absurd ⟨h1, h2⟩ hc⟩
  refine ⟨if ow = false ∧ getenv es n ≠ none then es else putenv n v es, ?_, key _ (by split <;> rfl)⟩
  cases native with
  | true =>
    simp only [setenvWrapper, if_true, setenv, hn.1, hasEq_false hn.2.1, or_self, Bool.false_eq_true, if_false]
    split <;> rfl
  | false =>
    have hl : ¬(n ++ 61 :: v).length ≥ 1024 := by simp at hlen ⊢; omega
    simp only [setenvWrapper, hn.1, hasEq_false hn.2.1, or_self, Bool.false_eq_true, if_false, hl, (split_eq hn.2.1).1, (split_eq hn.2.1).2]
    split <;> rfl

/-- A name that cannot be one is refused and nothing changes; so is a text of 1024 bytes or more where the C library has no setenv. -/
theorem C136_setenv_refused (native : Bool) (n v : Bytes) (ow : Bool) (es : List Bytes)
    (h : n = [] ∨ (61 : UInt8) ∈ n ∨ (native = false ∧ n.length + 1 + v.length ≥ 1024 ∧ (ow = true ∨ Unset es n))) : setenvWrapper native n v ow es = (-1, es) := by
  by_cases hv : n = [] ∨ (61 : UInt8) ∈ n
  · have : n = [] ∨ hasEq n = true := hv.imp id hasEq_true
    cases native <;> simp [setenvWrapper, setenv, this]
  · rw [← or_assoc] at h
    obtain ⟨rfl, h1, h2⟩ := h.resolve_left hv
    simp only [not_or] at hv
    have hc : ¬(ow = false ∧ getenv es n ≠ none) := by
      rw [ne_eq, getenv_none_iff]
      rcases h2 with rfl | h2
      · simp
      · exact fun h => h.2 h2
    have hl : (n ++ 61 :: v).length ≥ 1024 := by simp; omega
    simp only [setenvWrapper, hv.1, hasEq_false hv.2, or_self, Bool.false_eq_true, if_false, hc, hl, if_true]

/-- `putenv_wrapper("n=v")` sets n to v, '=' in v included. -/
theorem C136_putenv (native : Bool) (n v : Bytes) (hn : ValidName n) (es : List Bytes) (hlen : native = true ∨ n.length + 1 + v.length < 1024) :
    ∃ es', putenvWrapper native (n ++ [61] ++ v) es = (0, es') ∧ SameOthers es es' n ∧ Value es' n v := by
  have hf : (n ++ [61] ++ v).findIdx? (· == 61) = some n.length := by
    rw [List.append_assoc, List.findIdx?_append, List.findIdx?_eq_none_iff.2]
    · simp [List.findIdx?_cons]
    · intro x hx
      simp only [beq_eq_false_iff_ne]
      exact fun e => hn.2.1 (e ▸ hx)
  obtain ⟨es', h1, h2, h3, _⟩ := C136_setenv native n v hn true es hlen
  refine ⟨es', ?_, h2, h3 (Or.inl rfl)⟩
  have ht : (n ++ [61] ++ v).take n.length = n := by simp
  have hd : (n ++ [61] ++ v).drop (n.length + 1) = v := List.drop_left' (by simp)
  rw [putenvWrapper, hf]
  simp only [ht, hd, h1]

/-- A text without '=' or with nothing before it is refused. -/
theorem C136_putenv_refused (native : Bool) (s : Bytes) (h : (61 : UInt8) ∉ s ∨ ∃ v, s = 61 :: v) (es : List Bytes) : putenvWrapper native s es = (-1, es) := by
  rcases h with h | ⟨v, rfl⟩
  · have : s.findIdx? (· == 61) = none := List.findIdx?_eq_none_iff.2 (fun x hx => by simp; exact fun e => h (e ▸ hx))
    rw [putenvWrapper, this]
  · simp [putenvWrapper, List.findIdx?_cons]
    exact C136_setenv_refused native [] _ _ _ (Or.inl rfl)

example : ∃ es', putenvWrapper false "PATH=/bin:/x=y".toUTF8.data.toList ["PATH=/usr".toUTF8.data.toList, "HOME=/".toUTF8.data.toList] = (0, es') ∧
    Value es' "PATH".toUTF8.data.toList "/bin:/x=y".toUTF8.data.toList ∧ Value es' "HOME".toUTF8.data.toList "/".toUTF8.data.toList := by
  refine ⟨["PATH=/bin:/x=y".toUTF8.data.toList, "HOME=/".toUTF8.data.toList], by decide +kernel, ?_, ?_⟩ <;> rw [← getenv_iff] <;> decide +kernel

/-- Of two variables of one name the second survives (POSIX: "shall remove"; getenv still finds the name). -/
theorem C136_second_survives_negated : ∃ es : List Bytes, unsetenv (some [65]) ([[65, 61, 49], [65, 61, 50]].map some ++ [none]) = some (0, es.map some ++ [none, none]) ∧ Value es [65] [50] :=
  ⟨[[65, 61, 50]], by decide, (getenv_iff _ _ _).1 (by decide)⟩

end Environ
