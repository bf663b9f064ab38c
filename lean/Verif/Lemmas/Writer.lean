import Verif.Model.Writer
import Verif.Lemmas.Buffer
/-! # Lemmas about the string writer -/
open Buffer

namespace Writer
open WriterSpec (added ok)

/-- `w` holds the text `xs`, terminated. -/
structure WRep (w : W) (xs : List UInt8) : Prop where
  len : w.len = xs.length
  alloc : w.allocated = w.data.length
  data : ∃ rest, w.data = xs.map some ++ some 0 :: rest

def exec (w : W) : WriterSpec.Op → Option (W × Nat)
  | .writeLen s n => writeLen w s n
  | .write s => write w s
  | .writeF t => writeF w t
  | .writeChar c => writeChar w c

def execs (w : W) : List WriterSpec.Op → Option (W × List Nat)
  | [] => some (w, [])
  | op :: ops => do
    let (w, n) ← exec w op
    let (w, ns) ← execs w ops
    some (w, n :: ns)

theorem realloc_ok {w : W} {xs : List UInt8} (h : WRep w xs) (extra : Nat) (b : Bool) (hb : b = false → w.len + extra + 1 ≤ w.allocated) :
    ∃ w', w' = (if b then reallocate w extra else w) ∧ w'.len = xs.length ∧ w'.allocated = w'.data.length ∧
      (∃ rest, w'.data = xs.map some ++ rest ∧ extra + 1 ≤ rest.length) := by
  obtain ⟨rest, hd⟩ := h.data
  have hl : w.data.length = xs.length + rest.length + 1 := by rw [hd]; simp; omega
  cases b with
  | false =>
    refine ⟨w, rfl, h.len, h.alloc, some 0 :: rest, hd, ?_⟩
    have := hb rfl; have := h.len; have := h.alloc; simp; omega
  | true =>
    refine ⟨_, rfl, by simp [reallocate, h.len], ?_, some 0 :: rest ++ List.replicate (max (w.allocated * 2) (w.len + extra + 1) - w.data.length) none, ?_, ?_⟩
    · have := h.alloc; simp [reallocate, CMem.realloc]; omega
    · simp only [if_true, reallocate, CMem.realloc]
      rw [List.take_of_length_le (by have := h.alloc; omega), hd]
      simp
    · have := h.len; have := h.alloc; simp; omega

theorem writeLen_ok {w : W} {xs : List UInt8} (h : WRep w xs) (str : List UInt8) (n : Nat) (hok : n ≤ str.length ∨ 0 ∈ str) :
    ∃ w', writeLen w str n = some (w', ((str.take n).takeWhile (· ≠ 0)).length) ∧ WRep w' (xs ++ (str.take n).takeWhile (· ≠ 0)) := by
  obtain ⟨s1, s2, s3⟩ := strnlen_ok n str hok
  rw [show BufferSpec.cstr (str.take n) = (str.take n).takeWhile (· ≠ 0) from rfl] at s1 s2 s3
  generalize (str.take n).takeWhile (· ≠ 0) = p at *
  simp only [writeLen, s1, Option.bind_eq_bind, Option.bind_some]
  obtain ⟨w1, e1, e2, e3, rest, e4, e5⟩ := realloc_ok h p.length (decide (w.len + p.length + 1 > w.allocated)) (by simp)
  simp only [decide_eq_true_eq] at e1
  rw [← e1]
  obtain ⟨m1, m2, q1, q2, q3, q4⟩ := store_ok (b := ⟨w1.data, .cstring, 0, w1.len⟩) (ys := str) e4 e2 (n := p.length) s2 (by omega)
  simp only at q1 q2 q4
  rw [q1]
  simp only [Option.bind_some]
  rw [q2]
  rw [s3] at q3
  exact ⟨_, rfl, by simp [e2], by simp [e3, q4], _, q3⟩

theorem exec_ok {w : W} {xs : List UInt8} (h : WRep w xs) (op : WriterSpec.Op) (hok : ok op) :
    ∃ w', exec w op = some (w', (added op).length) ∧ WRep w' (xs ++ added op) := by
  have hz : ∀ t : List UInt8, 0 ∉ t → t.length ≤ 2147483647 →
      ((t ++ [0]).take intMax).takeWhile (fun x => decide (x ≠ 0)) = t := by
    intro t h0 hl
    have h1 : (t ++ [0]).take intMax = t ++ ([0] : List UInt8).take (intMax - t.length) := by
      rw [List.take_append, List.take_of_length_le (by exact hl)]
    rw [h1, List.takeWhile_append_of_pos (by intro a ha; simp; intro hh; exact h0 (hh ▸ ha))]
    cases intMax - t.length <;> simp
  cases op with
  | writeLen s n => exact writeLen_ok h s n hok
  | write s =>
    have := writeLen_ok h (s ++ [0]) intMax (Or.inr (by simp))
    rw [hz s hok.1 hok.2] at this
    exact this
  | writeF s =>
    have := writeLen_ok h (s ++ [0]) intMax (Or.inr (by simp))
    rw [hz s hok.1 hok.2] at this
    exact this
  | writeChar c =>
    simp only [exec, writeChar, added]
    have : ∃ w1 : W, w1 = (if w.len + 2 > w.allocated then reallocate w 2 else w) ∧ w1.len = xs.length ∧ w1.allocated = w1.data.length ∧
        (∃ rest, w1.data = xs.map some ++ rest ∧ 2 ≤ rest.length) := by
      by_cases hx : w.len + 2 > w.allocated
      · obtain ⟨w1, e1, e2, e3, rest, e4, e5⟩ := realloc_ok h 2 true (by simp)
        exact ⟨w1, by rw [e1]; simp [hx], e2, e3, rest, e4, by omega⟩
      · obtain ⟨w1, e1, e2, e3, rest, e4, e5⟩ := realloc_ok h 1 false (by intro _; omega)
        exact ⟨w1, by rw [e1]; simp [hx], e2, e3, rest, e4, by omega⟩
    obtain ⟨w1, e1, e2, e3, rest, e4, e5⟩ := this
    rw [← e1]
    obtain ⟨r0, r1, rs, hrs⟩ : ∃ r0 r1 rs, rest = r0 :: r1 :: rs := by
      match rest, e5 with
      | r0 :: r1 :: rs, _ => exact ⟨r0, r1, rs, rfl⟩
    have p1 : CMem.write w1.data w1.len (some c) = some ((xs ++ [c]).map some ++ r1 :: rs) := by
      rw [e4, e2, write_at (by rw [hrs]; simp), hrs]; simp
    have p2 : CMem.write ((xs ++ [c]).map some ++ r1 :: rs) (w1.len + 1) (some 0) = some ((xs ++ [c]).map some ++ some 0 :: rs) := by
      have := write_at (xs := xs ++ [c]) (rest := r1 :: rs) (by simp) 0
      rw [show (xs ++ [c]).length = w1.len + 1 by simp [e2]] at this
      simpa using this
    simp only [p1, p2, Option.bind_eq_bind, Option.bind_some, List.length_singleton]
    refine ⟨_, rfl, by simp [e2], ?_, rs, rfl⟩
    simp [e3, e4, hrs]

theorem execs_ok : ∀ (ops : List WriterSpec.Op) {w : W} {xs : List UInt8}, WRep w xs → (∀ op ∈ ops, ok op) →
    ∃ w', execs w ops = some (w', ops.map fun op => (added op).length) ∧ WRep w' (xs ++ ops.flatMap added) := by
  intro ops
  induction ops with
  | nil => intro w xs h _; exact ⟨w, rfl, by simpa using h⟩
  | cons op ops ih =>
    intro w xs h hok
    obtain ⟨w1, e1, e2⟩ := exec_ok h op (hok op (by simp))
    obtain ⟨w2, f1, f2⟩ := ih e2 (fun o ho => hok o (by simp [ho]))
    exact ⟨w2, by simp [execs, e1, f1], by simpa [List.append_assoc] using f2⟩

theorem writeChar_ok {w : W} {xs : List UInt8} (h : WRep w xs) (c : UInt8) :
    ∃ w', writeChar w c = some (w', 1) ∧ WRep w' (xs ++ [c]) := exec_ok h (.writeChar c) trivial

theorem write_ok {w : W} {xs : List UInt8} (h : WRep w xs) (s : List UInt8) (h0 : 0 ∉ s) (hl : s.length ≤ 2147483647) :
    ∃ w', write w s = some (w', s.length) ∧ WRep w' (xs ++ s) := exec_ok h (.write s) ⟨h0, hl⟩

theorem init_ok : WRep stringWriter [] := ⟨rfl, rfl, [], rfl⟩

theorem dataZ_ok {w : W} {xs : List UInt8} (h : WRep w xs) : dataZ w = some (xs ++ [0]) := by
  obtain ⟨rest, hd⟩ := h.data
  simp only [dataZ, h.len]
  have h1 : w.data = (xs ++ [0]).map some ++ rest := by rw [hd]; simp
  rw [h1, Buffer.getRange_at _ _ _ _ (by simp), List.drop_zero, List.take_of_length_le (by simp)]

end Writer
