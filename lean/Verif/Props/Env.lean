import Verif.Model.Env
import Verif.Props.Trim
import Verif.Props.StrNum
/-! # C45 (versions), C51 (cleanup functions), C53 (environment-file lines) -/
open NumSpec TrimSpec StrSpec

/-! ## Versions -/
namespace Version
open VersionSpec

theorem scan_dotted : ∀ (k : Nat) (s : List UInt8) (xs : List Int), scan k s = some xs → Dotted k s xs := by
  intro k
  induction k with
  | zero => intro s xs h; simp [scan] at h; subst h; exact .zero s
  | succ k ih =>
    intro s xs h
    rw [scan] at h
    cases hp : Str.strtoParse s with
    | none =>
      rw [hp] at h
      cases h
      exact .stop k s ((Str.parse_none s).1 hp)
    | some r =>
      obtain ⟨neg, mag, e⟩ := r
      rw [hp] at h
      simp only at h
      obtain ⟨hn, _, _⟩ := Str.numeral_parse s neg mag e hp
      have hv : (if neg = true then -(mag : Int) else mag) = signed neg mag := rfl
      rw [hv] at h
      split at h
      · cases h
      · split at h
        · rename_i r hr
          rw [hr] at hn
          cases hs : scan k r with
          | none => rw [hs] at h; cases h
          | some ys => rw [hs] at h; cases h; exact .dot k s r neg mag ys hn (ih _ _ hs)
        · rename_i hne
          cases h
          refine .last k s _ neg mag hn ?_
          intro hh
          cases hd : s.drop e with
          | nil => rw [hd] at hh; cases hh
          | cons c r => rw [hd] at hh; cases hh; exact hne r hd

theorem scan_of_dotted {k : Nat} {s : List UInt8} {xs : List Int} (h : Dotted k s xs) (hr : ∀ x ∈ xs, -2147483648 ≤ x ∧ x ≤ 2147483647) : scan k s = some xs := by
  induction h with
  | zero s => rfl
  | stop k s h => rw [scan, (Str.parse_none s).2 h]
  | last k s rest neg mag hn h46 =>
    have hp := Str.parse_numeral s neg mag rest hn
    rw [scan, hp]
    simp only
    have hv : (if neg = true then -(mag : Int) else mag) = signed neg mag := rfl
    have := hr (signed neg mag) (by simp)
    rw [hv, if_neg (by omega)]
    have hd := (Str.numeral_parse s neg mag _ hp).1
    have hd := (C40_numeral_unique s _ _ _ _ _ _ hd hn).2.2
    rw [hd]
    split
    · simp at h46
    · rfl
  | dot k s rest neg mag xs hn h ih =>
    have hp := Str.parse_numeral s neg mag _ hn
    rw [scan, hp]
    simp only
    have hv : (if neg = true then -(mag : Int) else mag) = signed neg mag := rfl
    have := hr (signed neg mag) (by simp)
    rw [hv, if_neg (by omega)]
    have hd := (Str.numeral_parse s neg mag _ hp).1
    have hd := (C40_numeral_unique s _ _ _ _ _ _ hd hn).2.2
    rw [hd]
    simp only
    rw [ih (fun x hx => hr x (by simp [hx]))]; rfl

theorem dotted_le {k : Nat} {s : List UInt8} {xs : List Int} (h : Dotted k s xs) : xs.length ≤ k := by
  induction h <;> simp <;> omega

/-- The answer for an ordering. -/
def Cmp.ofOrdering : Ordering → Cmp
  | .lt => .smaller
  | .eq => .equal
  | .gt => .greater

def Cmp.swap : Cmp → Cmp
  | .smaller => .greater
  | .greater => .smaller
  | c => c

end Version

open VersionSpec in
/-- C45. For texts that start with one to three dotted numbers (each fitting an `int`), `CompareVersion` compares the numbers both texts have,
the first difference deciding; a text without a number at its start is an error. -/
theorem C45_compare (a b : List UInt8) (xs ys : List Int) (ha : Dotted 3 a xs) (hb : Dotted 3 b ys)
    (hx : ∀ x ∈ xs, -2147483648 ≤ x ∧ x ≤ 2147483647) (hy : ∀ y ∈ ys, -2147483648 ≤ y ∧ y ≤ 2147483647) :
    Version.compare a b = some (if xs = [] ∨ ys = [] then .error else .ofOrdering (compareCommon xs ys)) := by
  have la := Version.dotted_le ha
  have lb := Version.dotted_le hb
  rw [Version.compare, Version.scan_of_dotted ha hx, Version.scan_of_dotted hb hy]
  simp only [Option.bind_eq_bind, Option.bind_some]
  match xs, ys, la, lb with
  | [], _, _, _ => simp
  | _ :: _, [], _, lb => simp
  | [x], [y], _, _ =>
    simp [compareCommon]; repeat' split
    all_goals first | rfl | (exfalso; omega)
  | [x], [y, y2], _, _ =>
    simp [compareCommon]; repeat' split
    all_goals first | rfl | (exfalso; omega)
  | [x], [y, y2, y3], _, _ =>
    simp [compareCommon]; repeat' split
    all_goals first | rfl | (exfalso; omega)
  | [x, x2], [y], _, _ =>
    simp [compareCommon]; repeat' split
    all_goals first | rfl | (exfalso; omega)
  | [x, x2], [y, y2], _, _ =>
    simp [compareCommon]; repeat' split
    all_goals first | rfl | (exfalso; omega)
  | [x, x2], [y, y2, y3], _, _ =>
    simp [compareCommon]; repeat' split
    all_goals first | rfl | (exfalso; omega)
  | [x, x2, x3], [y], _, _ =>
    simp [compareCommon]; repeat' split
    all_goals first | rfl | (exfalso; omega)
  | [x, x2, x3], [y, y2], _, _ =>
    simp [compareCommon]; repeat' split
    all_goals first | rfl | (exfalso; omega)
  | [x, x2, x3], [y, y2, y3], _, _ =>
    simp [compareCommon]; repeat' split
    all_goals first | rfl | (exfalso; omega)

namespace VersionSpec
theorem compareCommon_swap (xs : List Int) : ∀ ys, compareCommon ys xs = (compareCommon xs ys).swap := by
  induction xs with
  | nil => intro ys; cases ys <;> rfl
  | cons x xs ih =>
    intro ys
    cases ys with
    | nil => rfl
    | cons y ys =>
      simp only [compareCommon]
      rcases Int.lt_trichotomy x y with h | h | h
      · rw [if_neg (by omega), if_pos (by omega), if_pos h]; rfl
      · subst h; rw [if_neg (by omega), if_neg (by omega), ih]; simp
      · rw [if_pos h, if_neg (by omega), if_pos h]; rfl
end VersionSpec

/-- C45. Swapping the arguments swaps the answer, whenever the comparison is defined both ways (no number overflows an `int`). -/
theorem C45_antisymmetric (a b : List UInt8) (r r' : Version.Cmp) (h : Version.compare a b = some r) (h' : Version.compare b a = some r') : r' = r.swap := by
  cases ha : Version.scan 3 a with
  | none => simp [Version.compare, ha] at h
  | some xs =>
    cases hb : Version.scan 3 b with
    | none => simp [Version.compare, hb] at h'
    | some ys =>
      have range : ∀ (k : Nat) (s : List UInt8) (zs : List Int), Version.scan k s = some zs → ∀ z ∈ zs, -2147483648 ≤ z ∧ z ≤ 2147483647 := by
        intro k
        induction k with
        | zero => intro s zs h z hz; simp [Version.scan] at h; subst h; simp at hz
        | succ k ih =>
          intro s zs h z hz
          rw [Version.scan] at h
          split at h
          · cases h; simp at hz
          · rename_i neg mag e _
            simp only at h
            generalize (if neg = true then -(mag : Int) else mag) = v at h
            split at h
            · cases h
            · rename_i hrange
              split at h
              · rename_i r _
                cases hs : Version.scan k r with
                | none => rw [hs] at h; cases h
                | some ys =>
                  rw [hs] at h; cases h
                  rcases List.mem_cons.1 hz with rfl | hz
                  · omega
                  · exact ih _ _ hs z hz
              · cases h
                simp at hz; subst hz; omega
      have da := Version.scan_dotted 3 a xs ha
      have db := Version.scan_dotted 3 b ys hb
      rw [C45_compare a b xs ys da db (range 3 a xs ha) (range 3 b ys hb)] at h
      rw [C45_compare b a ys xs db da (range 3 b ys hb) (range 3 a xs ha)] at h'
      cases h; cases h'
      by_cases hn : xs = [] ∨ ys = []
      · rw [if_pos hn, if_pos (by rcases hn with h | h; exact Or.inr h; exact Or.inl h)]; rfl
      · rw [if_neg hn, if_neg (by rintro (h | h); exact hn (Or.inr h); exact hn (Or.inl h)), VersionSpec.compareCommon_swap xs ys]
        cases VersionSpec.compareCommon xs ys <;> rfl

example : Version.compare [51, 46, 49, 53, 46, 48] [51, 46, 49, 53, 46, 48, 97] = some .equal ∧ Version.compare [51, 46, 55] [51, 46, 49, 48] = some .smaller ∧
    Version.compare [118, 51] [51] = some .error := by decide +kernel

/-- Finding: "equal" is not transitive, so `CompareVersion` is no ordering for sorting: 3.1 = 3 = 3.2, yet 3.1 < 3.2. -/
theorem C45_equal_not_transitive : ∃ a b c, Version.compare a b = some .equal ∧ Version.compare b c = some .equal ∧ Version.compare a c = some .smaller :=
  ⟨[51, 46, 49], [51], [51, 46, 50], by decide +kernel, by decide +kernel, by decide +kernel⟩

/-! ## Cleanup functions -/
namespace Cleanup

inductive Op where
  | register (f : Fn)
  | call

/-- A history of operations; the mutex makes each one atomic, so every interleaving of threads is such a sequence. -/
def run (s : State) : List Op → Option Res
  | [] => some (.ret s)
  | .register f :: ops => run (register s f) ops
  | .call :: ops =>
    match call s with
    | none => none
    | some .deadlock => some .deadlock
    | some (.ret s) => run s ops

/-- What should happen: functions waiting, newest first, and the calls made. -/
def spec (waiting log : List Nat) : List Op → List Nat × List Nat
  | [] => (waiting, log)
  | .register f :: ops => spec (f.id :: waiting) log ops
  | .call :: ops => spec [] (log ++ waiting) ops

/-- The list from `p` holds the functions `fs`; every link goes to an older node. -/
inductive Chain (heap : List (Option Node)) : Option Nat → List Fn → Prop
  | nil : Chain heap none []
  | cons (i : Nat) (n : Node) (fs : List Fn) : heap[i]? = some (some n) → (∀ j, n.next = some j → j < i) → Chain heap n.next fs → Chain heap (some i) (n.fn :: fs)

theorem Chain.mono {heap : List (Option Node)} {p : Option Nat} {fs : List Fn} (h : Chain heap p fs) (x : Option Node) : Chain (heap ++ [x]) p fs := by
  induction h with
  | nil => exact .nil
  | cons i n fs hi hlt _ ih =>
    refine .cons i n fs ?_ hlt ih
    have : i < heap.length := by
      apply Classical.byContradiction
      intro hc
      rw [List.getElem?_eq_none (by omega)] at hi; cases hi
    rw [List.getElem?_append_left this]; exact hi

theorem Chain.set {heap : List (Option Node)} {p : Option Nat} {fs : List Fn} (h : Chain heap p fs) (k : Nat) (hk : ∀ j, p = some j → j < k) : Chain (heap.set k none) p fs := by
  induction h with
  | nil => exact .nil
  | cons i n fs hi hlt _ ih =>
    have hik := hk i rfl
    refine .cons i n fs ?_ hlt (ih (fun j hj => by have := hlt j hj; omega))
    rw [List.getElem?_set_ne (by omega)]; exact hi

theorem Chain.len {heap : List (Option Node)} {p : Option Nat} {fs : List Fn} (h : Chain heap p fs) : ∀ k, (∀ j, p = some j → j < k) → fs.length ≤ k := by
  induction h with
  | nil => intro k _; simp
  | cons i n fs hi hlt _ ih =>
    intro k hk
    have := ih i hlt
    have := hk i rfl
    simp; omega

theorem call_ok : ∀ (fs : List Fn) (s : State) (p : Option Nat) (fuel : Nat), Chain s.heap p fs → (∀ f ∈ fs, f.registers = false) → fs.length < fuel →
    ∃ heap', callLoop s p fuel = some (.ret ⟨heap', none, s.log ++ fs.map (·.id)⟩) ∧ heap'.length = s.heap.length := by
  intro fs
  induction fs with
  | nil =>
    intro s p fuel h _ hf
    cases h
    cases fuel with
    | zero => simp at hf
    | succ fuel => exact ⟨s.heap, by simp [callLoop], rfl⟩
  | cons f fs ih =>
    intro s p fuel h hr hf
    cases h with
    | cons i n _ hi hlt hc =>
      cases fuel with
      | zero => simp at hf
      | succ fuel =>
        rw [callLoop]
        simp only [hi]
        rw [if_neg (by simp [hr n.fn (by simp)])]
        obtain ⟨h', h1, h2⟩ := ih { s with heap := s.heap.set i none, log := s.log ++ [n.fn.id] } n.next fuel (hc.set i hlt) (fun f hf => hr f (by simp [hf])) (by simp at hf; omega)
        exact ⟨h', by rw [h1]; simp, by simpa using h2⟩

theorem chain_bound {heap : List (Option Node)} {p : Option Nat} {fs : List Fn} (h : Chain heap p fs) : ∀ j, p = some j → j < heap.length := by
  intro j hj
  cases h with
  | nil => cases hj
  | cons i n _ hi _ _ =>
    cases hj
    apply Classical.byContradiction
    intro hc
    rw [List.getElem?_eq_none (by omega)] at hi; cases hi

theorem run_ok : ∀ (ops : List Op) (s : State) (fs : List Fn), Chain s.heap s.head fs → (∀ f ∈ fs, f.registers = false) →
    (∀ f, Op.register f ∈ ops → f.registers = false) →
    ∃ s' fs', run s ops = some (.ret s') ∧ Chain s'.heap s'.head fs' ∧ (fs'.map (·.id), s'.log) = spec (fs.map (·.id)) s.log ops := by
  intro ops
  induction ops with
  | nil => intro s fs h _ _; exact ⟨s, fs, rfl, h, rfl⟩
  | cons op ops ih =>
    intro s fs h hr hops
    cases op with
    | register f =>
      have hc : Chain (register s f).heap (register s f).head (f :: fs) := by
        refine Chain.cons s.heap.length ⟨f, s.head⟩ fs ?_ (chain_bound h) (h.mono _)
        simp [register]
      obtain ⟨s', fs', h1, h2, h3⟩ := ih (register s f) (f :: fs) hc (by
        intro g hg
        rcases List.mem_cons.1 hg with rfl | hg
        · exact hops _ (by simp)
        · exact hr g hg) (fun g hg => hops g (by simp [hg]))
      exact ⟨s', fs', h1, h2, by rw [h3]; rfl⟩
    | call =>
      obtain ⟨heap', h1, h2⟩ := call_ok fs s s.head (s.heap.length + 1) h hr (by have := h.len s.heap.length (chain_bound h); omega)
      obtain ⟨s', fs', h3, h4, h5⟩ := ih ⟨heap', none, s.log ++ fs.map (·.id)⟩ [] .nil (by simp) (fun g hg => hops g (by simp [hg]))
      exact ⟨s', fs', by rw [run, call, h1]; exact h3, h4, by rw [h5]; rfl⟩

end Cleanup

/-- C51. For every history of registrations and `CallCleanupFunctions`, the calls made are exactly those of the registered functions, each once per
registration, the last registered first; no freed node is used. (Functions that register further functions are excluded; see the next theorem.) -/
theorem C51_lifo_once (ops : List Cleanup.Op) (h : ∀ f, Cleanup.Op.register f ∈ ops → f.registers = false) :
    ∃ s, Cleanup.run {} ops = some (.ret s) ∧ s.log = (Cleanup.spec [] [] ops).2 := by
  obtain ⟨s, fs, h1, _, h3⟩ := Cleanup.run_ok ops {} [] .nil (by simp) h
  exact ⟨s, h1, by have := congrArg Prod.snd h3; simpa using this⟩

example : Cleanup.spec [] [] [.register ⟨1, false⟩, .register ⟨2, false⟩, .call, .register ⟨3, false⟩, .call] = ([], [2, 1, 3]) := rfl

/-- Finding: a cleanup function that calls `RegisterCleanupFunction` blocks for ever, because the mutex is held during the calls. -/
theorem C51_register_during_cleanup_deadlocks : Cleanup.run {} [.register ⟨1, true⟩, .call] = some .deadlock := rfl

/-! ## Environment-file lines -/
namespace Env
open EnvSpec

/-- `m` from `src` on holds the C string `t`. -/
theorem get_at {m : List (Option UInt8)} {src : Nat} {t : List UInt8} {rest : List (Option UInt8)} (h : m.drop src = t.map some ++ some 0 :: rest) (i : Nat) (hi : i < t.length) :
    CMem.get m (src + i) = some t[i] := by
  have : (m.drop src)[i]? = some (some t[i]) := by
    rw [h, List.getElem?_append_left (by simpa using hi)]; simp [hi]
  rw [List.getElem?_drop] at this
  simp [CMem.get, this]

theorem get_end {m : List (Option UInt8)} {src : Nat} {t : List UInt8} {rest : List (Option UInt8)} (h : m.drop src = t.map some ++ some 0 :: rest) :
    CMem.get m (src + t.length) = some 0 := by
  have : (m.drop src)[t.length]? = some (some 0) := by
    rw [h, List.getElem?_append_right (by simp)]; simp
  rw [List.getElem?_drop] at this
  simp [CMem.get, this]

theorem len_at {m : List (Option UInt8)} {src : Nat} {t : List UInt8} {rest : List (Option UInt8)} (h : m.drop src = t.map some ++ some 0 :: rest) : src + t.length < m.length := by
  have := congrArg List.length h
  simp at this; omega

/-- The loop of `filtered_copy`. -/
theorem filter_ok (q : Option UInt8) (hq : ∀ c, q = some c → c ≠ 0) : ∀ (n : Nat) (t : List UInt8) (m : List (Option UInt8)) (src dst fuel : Nat) (rest : List (Option UInt8)), t.length ≤ n →
    0 ∉ t → dst ≤ src → m.drop src = t.map some ++ some 0 :: rest → t.length < fuel →
    (decode q t = .badQuote → filteredLoop (q.getD 0) m src dst fuel = some none) ∧
    (∀ u, decode q t = .text u → ∃ m', filteredLoop (q.getD 0) m src dst fuel = some (some m') ∧ 0 ∉ u ∧ m'.take dst = m.take dst ∧
      ∃ rest', m'.drop dst = u.map some ++ some 0 :: rest') := by
  intro n
  induction n with
  | zero =>
    intro t m src dst fuel rest hn h0 hds hm hf
    have : t = [] := List.length_eq_zero_iff.1 (by omega)
    subst this
    obtain ⟨fuel, rfl⟩ : ∃ k, fuel = k + 1 := ⟨fuel - 1, by simp at hf; omega⟩
    have hl := len_at hm
    have hg := get_end hm
    simp at hl hg
    rw [filteredLoop, hg]
    simp only [Option.bind_eq_bind, Option.bind_some, true_or, if_true]
    rw [CMem.write_eq (by omega)]
    refine ⟨by simp [decode], ?_⟩
    intro u hu
    simp [decode] at hu; subst hu
    refine ⟨_, rfl, by simp, by rw [List.take_set_of_le (Nat.le_refl _)], m.drop (dst + 1), ?_⟩
    rw [List.drop_set, if_neg (by omega), Nat.sub_self, show m.drop dst = m[dst]'(by omega) :: m.drop (dst + 1) from List.drop_eq_getElem_cons _]
    rfl
  | succ n ih =>
    intro t m src dst fuel rest hn h0 hds hm hf
    cases t with
    | nil => exact ih [] m src dst fuel rest (by simp) h0 hds hm hf
    | cons c t =>
      obtain ⟨fuel, rfl⟩ : ∃ k, fuel = k + 1 := ⟨fuel - 1, by simp at hf; omega⟩
      have hl := len_at hm
      have hc0 : c ≠ 0 := by rintro rfl; simp at h0
      have hg := get_at hm 0 (by simp)
      simp at hg
      rw [filteredLoop, hg]
      simp only [Option.bind_eq_bind, Option.bind_some]
      rw [decode.eq_def]
      simp only
      have hdw : dst < m.length := by omega
      -- what a write at dst does
      have wr : ∀ x : UInt8, CMem.write m dst (some x) = some (m.set dst (some x)) := fun x => CMem.write_eq hdw
      have step : ∀ (x : UInt8) (t' : List UInt8) (k : Nat), x ≠ 0 → 1 ≤ k → t'.length ≤ n → 0 ∉ t' → m.drop (src + k) = t'.map some ++ some 0 :: rest → t'.length < fuel →
          ((decode q t').cons x = .badQuote → filteredLoop (q.getD 0) (m.set dst (some x)) (src + k) (dst + 1) fuel = some none) ∧
          (∀ u, (decode q t').cons x = .text u → ∃ m', filteredLoop (q.getD 0) (m.set dst (some x)) (src + k) (dst + 1) fuel = some (some m') ∧ 0 ∉ u ∧ m'.take dst = m.take dst ∧
            ∃ rest', m'.drop dst = u.map some ++ some 0 :: rest') := by
        intro x t' k hx hk hn' h0' hm' hf'
        have hm2 : (m.set dst (some x)).drop (src + k) = t'.map some ++ some 0 :: rest := by
          rw [List.drop_set, if_pos (by omega)]; exact hm'
        obtain ⟨h1, h2⟩ := ih t' (m.set dst (some x)) (src + k) (dst + 1) fuel rest hn' h0' (by omega) hm2 hf'
        constructor
        · intro hb
          apply h1
          cases hd : decode q t' with
          | badQuote => rfl
          | text v => rw [hd] at hb; cases hb
          | dangling => rw [hd] at hb; cases hb
        · intro u hu
          cases hd : decode q t' with
          | badQuote => rw [hd] at hu; cases hu
          | dangling => rw [hd] at hu; cases hu
          | text v =>
            rw [hd] at hu; cases hu
            obtain ⟨m', e1, e2, e3, rest', e4⟩ := h2 v hd
            have hlm : dst < m'.length := by
              have := congrArg List.length e4
              simp at this; omega
            have htk : m'.take dst = m.take dst := by
              have := congrArg (List.take dst) e3
              rw [List.take_take, List.take_take, Nat.min_eq_left (by omega), List.take_set_of_le (Nat.le_refl _)] at this
              exact this
            have hel : m'[dst]'hlm = some x := by
              have h5 := congrArg (fun l => l[dst]?) e3
              simp only [List.getElem?_take] at h5
              rw [if_pos (by omega), if_pos (by omega)] at h5
              rw [List.getElem?_eq_getElem hlm, List.getElem?_set_self hdw] at h5
              simpa using h5
            refine ⟨m', e1, by simp [e2]; exact fun e => hx e.symm, htk, rest', ?_⟩
            rw [show m'.drop dst = m'[dst]'hlm :: m'.drop (dst + 1) from List.drop_eq_getElem_cons _, hel, e4]
            rfl
      have hdrop : ∀ k, k ≤ (c :: t).length → m.drop (src + k) = ((c :: t).drop k).map some ++ some 0 :: rest := by
        intro k hk
        rw [← List.drop_drop, hm, List.drop_append_of_le_length (by simpa using hk), List.map_drop]
      by_cases hq1 : some c = q
      · rw [if_pos hq1, if_pos (show c = 0 ∨ c = q.getD 0 by right; rw [← hq1]; rfl), wr]
        refine ⟨by simp, ?_⟩
        intro u hu
        simp at hu; subst hu
        refine ⟨_, rfl, by simp, by rw [List.take_set_of_le (Nat.le_refl _)], m.drop (dst + 1), ?_⟩
        rw [List.drop_set, if_neg (by omega), Nat.sub_self, show m.drop dst = m[dst]'(by omega) :: m.drop (dst + 1) from List.drop_eq_getElem_cons _]
        rfl
      · have hcq : ¬ (c = 0 ∨ c = q.getD 0) := by
          rintro (h | h)
          · exact hc0 h
          · cases hqq : q with
            | none => rw [hqq] at h; exact hc0 h
            | some d => rw [hqq] at h hq1; exact hq1 (by simpa using h)
        rw [if_neg hcq, if_neg hq1]
        by_cases hbq : q = none ∧ quote c = true
        · rw [if_pos hbq]
          have : q.getD 0 = 0 ∧ (c = 34 ∨ c = 39) := by
            refine ⟨by rw [hbq.1]; rfl, ?_⟩
            have := hbq.2; simp [quote] at this; exact this
          rw [if_pos this]
          exact ⟨fun _ => rfl, fun u hu => by cases hu⟩
        · rw [if_neg hbq]
          have : ¬ (q.getD 0 = 0 ∧ (c = 34 ∨ c = 39)) := by
            rintro ⟨h1, h2⟩
            apply hbq
            refine ⟨?_, by simpa [quote] using h2⟩
            cases hqq : q with
            | none => rfl
            | some d => rw [hqq] at h1; exact absurd h1 (hq d hqq)
          rw [if_neg this]
          by_cases h92 : c = 92
          · rw [if_pos h92, if_pos h92]
            cases t with
            | nil => exact ⟨by simp, by simp⟩
            | cons d t =>
              have hd0 : d ≠ 0 := by rintro rfl; simp at h0
              have hgd := get_at hm 1 (by simp)
              simp at hgd
              rw [hgd]
              simp only [Option.bind_some]
              have hmd := hdrop 2 (by simp)
              simp at hmd
              by_cases h110 : d = 110
              · rw [if_pos h110, if_pos h110, wr]
                exact step 10 t 2 (by decide) (by omega) (by simp at hn; omega) (by simp at h0; exact h0.2.2) (by simpa using hmd) (by simp at hf; omega)
              · rw [if_neg h110, if_neg h110, wr]
                exact step d t 2 hd0 (by omega) (by simp at hn; omega) (by simp at h0; exact h0.2.2) (by simpa using hmd) (by simp at hf; omega)
          · rw [if_neg h92, if_neg h92, wr]
            have hmd := hdrop 1 (by simp)
            simp at hmd
            exact step c t 1 hc0 (by omega) (by simp at hn; omega) (by simp at h0; exact h0.2) (by simpa using hmd) (by simp at hf; omega)

theorem filteredCopy_ok (m : List (Option UInt8)) (off : Nat) (t : List UInt8) (h : HoldsStr (m.drop off) t) :
    (EnvSpec.value t = .badQuote → filteredCopy m off = some none) ∧
    (∀ u, EnvSpec.value t = .text u → ∃ m', filteredCopy m off = some (some m') ∧ m'.take off = m.take off ∧ HoldsStr (m'.drop off) u) := by
  obtain ⟨h0, rest, hm⟩ := h
  have hl := len_at hm
  unfold filteredCopy
  cases t with
  | nil =>
    have hg := get_end hm
    simp at hg
    rw [hg]
    simp only [Option.bind_eq_bind, Option.bind_some]
    rw [if_neg (by decide)]
    obtain ⟨h1, h2⟩ := filter_ok none (by simp) 0 [] m off off (m.length + 1) rest (by simp) h0 (Nat.le_refl _) hm (by simp)
    refine ⟨by simp [EnvSpec.value], ?_⟩
    intro u hu
    obtain ⟨m', e1, e2, e3, e4⟩ := h2 u (by simpa [EnvSpec.value, decode] using hu)
    exact ⟨m', e1, e3, e2, e4⟩
  | cons c t =>
    have hg := get_at hm 0 (by simp)
    simp at hg
    rw [hg]
    simp only [Option.bind_eq_bind, Option.bind_some]
    by_cases hq : quote c = true
    · rw [if_pos (by simpa [quote] using hq)]
      have hc0 : c ≠ 0 := by rintro rfl; simp at h0
      have hm' : m.drop (off + 1) = t.map some ++ some 0 :: rest := by rw [← List.drop_drop, hm]; rfl
      obtain ⟨h1, h2⟩ := filter_ok (some c) (by simpa using hc0) t.length t m (off + 1) off (m.length + 1) rest (Nat.le_refl _) (by simp at h0; exact h0.2) (by omega) hm' (by simp at hl; omega)
      rw [EnvSpec.value, if_pos hq]
      refine ⟨h1, ?_⟩
      intro u hu
      obtain ⟨m', e1, e2, e3, e4⟩ := h2 u hu
      exact ⟨m', e1, e3, e2, e4⟩
    · rw [if_neg (by simpa [quote] using hq), EnvSpec.value, if_neg hq]
      obtain ⟨h1, h2⟩ := filter_ok none (by simp) _ (c :: t) m off off (m.length + 1) rest (Nat.le_refl _) h0 (Nat.le_refl _) hm (by omega)
      refine ⟨h1, ?_⟩
      intro u hu
      obtain ⟨m', e1, e2, e3, e4⟩ := h2 u hu
      exact ⟨m', e1, e3, e2, e4⟩

/-- A string that ends before cell `n` only depends on the first `n` cells. -/
theorem holds_prefix {m m' : List (Option UInt8)} {k n : Nat} {s : List UInt8} (h : HoldsStr (m.drop k) s) (hk : k + s.length < n) (he : m'.take n = m.take n) :
    HoldsStr (m'.drop k) s := by
  obtain ⟨h0, rest, hm⟩ := h
  refine ⟨h0, (m'.drop k).drop (s.length + 1), ?_⟩
  have h1 : (m'.drop k).take (s.length + 1) = (m.drop k).take (s.length + 1) := by
    have : ∀ l : List (Option UInt8), (l.drop k).take (s.length + 1) = ((l.take n).drop k).take (s.length + 1) := by
      intro l
      rw [List.drop_take, List.take_take, Nat.min_eq_left (by omega)]
    rw [this m', this m, he]
  have h2 : (m.drop k).take (s.length + 1) = s.map some ++ [some 0] := by
    rw [hm, show s.map some ++ some 0 :: rest = (s.map some ++ [some 0]) ++ rest by simp, List.take_left' (by simp)]
  rw [h2] at h1
  conv => lhs; rw [← List.take_append_drop (s.length + 1) (m'.drop k), h1]
  simp

theorem trim_len (s : List UInt8) : (s.takeWhile space).length + (trim space s).length ≤ s.length := by
  have h1 : (trim space s).length ≤ (s.dropWhile space).length := by
    rw [trim, trimRight, List.length_reverse]
    have := (List.dropWhile_sublist (p := space) (l := (s.dropWhile space).reverse)).length_le
    simpa using this
  have h2 := congrArg List.length (List.takeWhile_append_dropWhile (p := space) (l := s))
  simp only [List.length_append] at h2
  omega

theorem assignment_split (t a b : List UInt8) (h : t = a ++ [61] ++ b) (ha : 61 ∉ a) : t.takeWhile (· ≠ 61) = a := by
  subst h
  induction a with
  | nil => simp
  | cons c a ih =>
    simp only [List.mem_cons, not_or] at ha
    have hc : c ≠ 61 := fun e => ha.1 e.symm
    have := ih ha.2
    simp only [List.append_assoc, List.cons_append, List.takeWhile_cons] at this ⊢
    simp [hc]
    simpa using this

theorem split_assignment (t : List UInt8) (h : 61 ∈ t) : ∃ b, t = t.takeWhile (· ≠ 61) ++ [61] ++ b ∧ 61 ∉ t.takeWhile (· ≠ 61) := by
  induction t with
  | nil => simp at h
  | cons c t ih =>
    by_cases hc : c = 61
    · subst hc; exact ⟨t, by simp, by simp⟩
    · have : 61 ∈ t := by rcases List.mem_cons.1 h with h | h; exact absurd h.symm hc; exact h
      obtain ⟨b, hb, hb2⟩ := ih this
      refine ⟨b, ?_, ?_⟩
      · rw [List.takeWhile_cons, if_pos (by simpa using hc)]
        simp only [List.cons_append]
        rw [← hb]
      · rw [List.takeWhile_cons, if_pos (by simpa using hc)]
        simp only [List.mem_cons, not_or]
        exact ⟨fun e => hc e.symm, hb2⟩

theorem parseTail_ok (m : List (Option UInt8)) (line : Nat) (a b : List UInt8) (h : HoldsStr (m.drop line) (a ++ [61] ++ b)) :
    (EnvSpec.value (trim space b) = .badQuote → parseTail m line (line + a.length) = some none) ∧
    (∀ u, EnvSpec.value (trim space b) = .text u → ∃ m' k v, parseTail m line (line + a.length) = some (some (m', k, v)) ∧
      HoldsStr (m'.drop k) (trim space a) ∧ HoldsStr (m'.drop v) u) := by
  obtain ⟨h0, rest, hm⟩ := h
  have hl := len_at hm
  simp at hl
  simp only [List.mem_append, not_or] at h0
  have hw : CMem.write m (line + a.length) (some 0) = some (m.set (line + a.length) (some 0)) := CMem.write_eq (by omega)
  generalize hm2 : m.set (line + a.length) (some 0) = m2 at hw
  have hd2 : m2.drop line = a.map some ++ some 0 :: (b.map some ++ some 0 :: rest) := by
    rw [← hm2, List.drop_set, if_neg (by omega), hm, Nat.add_sub_cancel_left]
    simp
  obtain ⟨d, o, t1, t2, t3, t4, t5⟩ := C42_trimWhitespace (m2.drop line) a ⟨h0.1.1, _, hd2⟩
  have hl2 : m2.length = m.length := by rw [← hm2]; simp
  have htr1 : trimAt m2 line = some (m2.take line ++ d, line + o) := by simp [trimAt, t1]
  generalize hm3 : m2.take line ++ d = m3 at htr1
  have htl : (m2.take line).length = line := by simp; omega
  have hd3 : m3.drop (line + a.length + 1) = b.map some ++ some 0 :: rest := by
    rw [← hm3, Nat.add_assoc, ← List.drop_drop, List.drop_left' htl, t5, hd2]
    rw [show a.map some ++ some 0 :: (b.map some ++ some 0 :: rest) = (a.map some ++ [some 0]) ++ (b.map some ++ some 0 :: rest) by simp, List.drop_left' (by simp)]
  have hkey : HoldsStr (m3.drop (line + o)) (trim space a) := by
    rw [← hm3, ← List.drop_drop, List.drop_left' htl]; exact t3
  have hl3 : m3.length = m.length := by rw [← hm3]; simp [t4]; omega
  obtain ⟨d', o', u1, u2, u3, u4, u5⟩ := C42_trimWhitespace (m3.drop (line + a.length + 1)) b ⟨h0.2, _, hd3⟩
  have htr2 : trimAt m3 (line + a.length + 1) = some (m3.take (line + a.length + 1) ++ d', line + a.length + 1 + o') := by simp [trimAt, u1]
  generalize hm4 : m3.take (line + a.length + 1) ++ d' = m4 at htr2
  have htl3 : (m3.take (line + a.length + 1)).length = line + a.length + 1 := by simp; omega
  have htk4 : m4.take (line + a.length + 1) = m3.take (line + a.length + 1) := by rw [← hm4]; exact List.take_left' htl3
  have hval : HoldsStr (m4.drop (line + a.length + 1 + o')) (trim space b) := by
    rw [← hm4, ← List.drop_drop, List.drop_left' htl3]; exact u3
  have hkl := trim_len a
  have hkey4 := holds_prefix (n := line + a.length + 1) hkey (by omega) htk4
  obtain ⟨f1, f2⟩ := filteredCopy_ok m4 _ _ hval
  have hred : parseTail m line (line + a.length) = (filteredCopy m4 (line + a.length + 1 + o')).bind fun r =>
      match r with | none => some none | some m => some (some (m, line + o, line + a.length + 1 + o')) := by
    simp [parseTail, hw, htr1, htr2]
    rfl
  rw [hred]
  refine ⟨fun hb => by rw [f1 hb]; rfl, ?_⟩
  intro u hu
  obtain ⟨m5, e1, e2, e3⟩ := f2 u hu
  refine ⟨m5, line + o, line + a.length + 1 + o', by rw [e1]; rfl, ?_, e3⟩
  refine holds_prefix (n := line + a.length + 1 + o') hkey4 (by omega) e2

/-- A lone backslash at the end of a block: the loop of `filtered_copy` leaves the block. -/
theorem filter_dangling (q : Option UInt8) (hq : ∀ c, q = some c → c ≠ 0) : ∀ (n : Nat) (t : List UInt8) (m : List (Option UInt8)) (src dst fuel : Nat), t.length ≤ n →
    0 ∉ t → dst ≤ src → m.drop src = t.map some ++ [some 0] → decode q t = .dangling → filteredLoop (q.getD 0) m src dst fuel = none := by
  intro n
  induction n with
  | zero =>
    intro t m src dst fuel hn h0 hds hm hd
    have : t = [] := List.length_eq_zero_iff.1 (by omega)
    subst this
    simp [decode] at hd
  | succ n ih =>
    intro t m src dst fuel hn h0 hds hm hd
    cases fuel with
    | zero => rfl
    | succ fuel =>
    cases t with
    | nil => simp [decode] at hd
    | cons c t =>
      have hl := len_at hm
      have hc0 : c ≠ 0 := by rintro rfl; simp at h0
      have hg := get_at hm 0 (by simp)
      simp at hg
      rw [filteredLoop, hg]
      simp only [Option.bind_eq_bind, Option.bind_some]
      rw [decode.eq_def] at hd
      simp only at hd
      have hdw : dst < m.length := by omega
      have wr : ∀ x : UInt8, CMem.write m dst (some x) = some (m.set dst (some x)) := fun x => CMem.write_eq hdw
      have undo : ∀ (x : UInt8) (v : Value), v.cons x = .dangling → v = .dangling := by
        intro x v h; cases v <;> simp_all [Value.cons]
      have hdrop : ∀ k, k ≤ (c :: t).length → m.drop (src + k) = ((c :: t).drop k).map some ++ [some 0] := by
        intro k hk
        rw [← List.drop_drop, hm, List.drop_append_of_le_length (by simpa using hk), List.map_drop]
      have step : ∀ (x : UInt8) (t' : List UInt8) (k : Nat), 1 ≤ k → t'.length ≤ n → 0 ∉ t' → m.drop (src + k) = t'.map some ++ [some 0] →
          decode q t' = .dangling → filteredLoop (q.getD 0) (m.set dst (some x)) (src + k) (dst + 1) fuel = none := by
        intro x t' k hk hn' h0' hm' hd'
        exact ih t' (m.set dst (some x)) (src + k) (dst + 1) fuel hn' h0' (by omega) (by rw [List.drop_set, if_pos (by omega)]; exact hm') hd'
      by_cases hq1 : some c = q
      · rw [if_pos hq1] at hd; cases hd
      · have hcq : ¬ (c = 0 ∨ c = q.getD 0) := by
          rintro (h | h)
          · exact hc0 h
          · cases hqq : q with
            | none => rw [hqq] at h; exact hc0 h
            | some d => rw [hqq] at h hq1; exact hq1 (by simpa using h)
        rw [if_neg hcq]
        rw [if_neg hq1] at hd
        by_cases hbq : q = none ∧ quote c = true
        · rw [if_pos hbq] at hd; cases hd
        · rw [if_neg hbq] at hd
          have : ¬ (q.getD 0 = 0 ∧ (c = 34 ∨ c = 39)) := by
            rintro ⟨h1, h2⟩
            apply hbq
            refine ⟨?_, by simpa [quote] using h2⟩
            cases hqq : q with
            | none => rfl
            | some d => rw [hqq] at h1; exact absurd h1 (hq d hqq)
          rw [if_neg this]
          by_cases h92 : c = 92
          · rw [if_pos h92]
            rw [if_pos h92] at hd
            cases t with
            | nil =>
              have hgd := get_end hm
              simp at hgd
              rw [hgd]
              simp only [Option.bind_some]
              rw [if_neg (by decide), wr]
              simp only [Option.bind_some]
              cases fuel with
              | zero => rfl
              | succ fuel =>
                have hlen : m.length = src + 2 := by
                  have := congrArg List.length hm
                  simp at this; omega
                have : CMem.get (m.set dst (some 0)) (src + 2) = none := by
                  simp [CMem.get, List.getElem?_eq_none, hlen]
                rw [filteredLoop, this]; rfl
            | cons d t =>
              have hd0 : d ≠ 0 := by rintro rfl; simp at h0
              have hgd := get_at hm 1 (by simp)
              simp at hgd
              rw [hgd]
              simp only [Option.bind_some]
              have hmd := hdrop 2 (by simp)
              simp at hmd
              have hd2 := undo _ _ hd
              by_cases h110 : d = 110
              · rw [if_pos h110, wr]
                exact step 10 t 2 (by omega) (by simp at hn; omega) (by simp at h0; exact h0.2.2) (by simpa using hmd) hd2
              · rw [if_neg h110, wr]
                exact step d t 2 (by omega) (by simp at hn; omega) (by simp at h0; exact h0.2.2) (by simpa using hmd) hd2
          · rw [if_neg h92, wr]
            rw [if_neg h92] at hd
            have hmd := hdrop 1 (by simp)
            simp at hmd
            exact step c t 1 (by omega) (by simp at hn; omega) (by simp at h0; exact h0.2) (by simpa using hmd) (undo _ _ hd)

theorem filteredCopy_dangling (m : List (Option UInt8)) (off : Nat) (t : List UInt8) (h0 : 0 ∉ t) (hm : m.drop off = t.map some ++ [some 0])
    (hd : EnvSpec.value t = .dangling) : filteredCopy m off = none := by
  unfold filteredCopy
  cases t with
  | nil => simp [EnvSpec.value] at hd
  | cons c t =>
    have hg := get_at hm 0 (by simp)
    simp at hg
    rw [hg]
    simp only [Option.bind_eq_bind, Option.bind_some]
    by_cases hq : quote c = true
    · rw [if_pos (by simpa [quote] using hq)]
      rw [EnvSpec.value, if_pos hq] at hd
      have hc0 : c ≠ 0 := by rintro rfl; simp at h0
      exact filter_dangling (some c) (by simpa using hc0) t.length t m (off + 1) off _ (Nat.le_refl _) (by simp at h0; exact h0.2) (by omega)
        (by rw [← List.drop_drop, hm]; rfl) hd
    · rw [if_neg (by simpa [quote] using hq)]
      rw [EnvSpec.value, if_neg hq] at hd
      exact filter_dangling none (by simp) _ (c :: t) m off off _ (Nat.le_refl _) h0 (Nat.le_refl _) hm hd

theorem trimRight_id {s : List UInt8} (h : ∀ c, s.getLast? = some c → space c = false) : trimRight space s = s := by
  rw [trimRight]
  cases hr : s.reverse with
  | nil => rw [List.reverse_eq_nil_iff.1 hr]; rfl
  | cons c r =>
    have hs : s = r.reverse ++ [c] := by rw [← List.reverse_reverse s, hr]; simp
    have := h c (by rw [hs]; simp)
    rw [List.dropWhile_cons, if_neg (by simp [this]), ← hr, List.reverse_reverse]

theorem trim_len_eq {s : List UInt8} (h : ∀ c, s.getLast? = some c → space c = false) : (s.takeWhile space).length + (trim space s).length = s.length := by
  have h2 := congrArg List.length (List.takeWhile_append_dropWhile (p := space) (l := s))
  simp only [List.length_append] at h2
  rw [trim, trimRight_id, h2]
  intro c hc
  apply h
  obtain ⟨l, hl⟩ : ∃ l, s.dropWhile space = l ++ [c] := by
    rcases List.eq_nil_or_concat (s.dropWhile space) with h | ⟨l, x, h⟩
    · rw [h] at hc; cases hc
    · rw [h] at hc; simp at hc; subst hc; exact ⟨l, by simpa using h⟩
  rw [← List.takeWhile_append_dropWhile (p := space) (l := s), hl]
  simp

/-- A string that fills the block to its end. -/
theorem holds_full {m : List (Option UInt8)} {off : Nat} {t : List UInt8} (h : HoldsStr (m.drop off) t) (hl : m.length = off + t.length + 1) :
    m.drop off = t.map some ++ [some 0] := by
  obtain ⟨h0, rest, hm⟩ := h
  have := congrArg List.length hm
  simp at this
  have : rest = [] := List.length_eq_zero_iff.1 (by omega)
  rw [hm, this]

theorem parseTail_dangling (m : List (Option UInt8)) (line : Nat) (a b : List UInt8) (h0 : 0 ∉ a ++ [61] ++ b)
    (hm : m.drop line = (a ++ [61] ++ b).map some ++ [some 0]) (hb : ∀ c, b.getLast? = some c → space c = false)
    (hd : EnvSpec.value (trim space b) = .dangling) : parseTail m line (line + a.length) = none := by
  have hl := len_at (rest := []) hm
  simp at hl
  simp only [List.mem_append, not_or] at h0
  have hw : CMem.write m (line + a.length) (some 0) = some (m.set (line + a.length) (some 0)) := CMem.write_eq (by omega)
  generalize hm2 : m.set (line + a.length) (some 0) = m2 at hw
  have hd2 : m2.drop line = a.map some ++ some 0 :: (b.map some ++ [some 0]) := by
    rw [← hm2, List.drop_set, if_neg (by omega), hm, Nat.add_sub_cancel_left]
    simp
  obtain ⟨d, o, t1, t2, t3, t4, t5⟩ := C42_trimWhitespace (m2.drop line) a ⟨h0.1.1, _, hd2⟩
  have hl2 : m2.length = m.length := by rw [← hm2]; simp
  have hlen : m.length = line + (a.length + 1 + b.length) + 1 := by
    have := congrArg List.length hm
    simp at this; omega
  have htr1 : trimAt m2 line = some (m2.take line ++ d, line + o) := by simp [trimAt, t1]
  generalize hm3 : m2.take line ++ d = m3 at htr1
  have htl : (m2.take line).length = line := by simp; omega
  have hd3 : m3.drop (line + a.length + 1) = b.map some ++ [some 0] := by
    rw [← hm3, Nat.add_assoc, ← List.drop_drop, List.drop_left' htl, t5, hd2]
    rw [show a.map some ++ some 0 :: (b.map some ++ [some 0]) = (a.map some ++ [some 0]) ++ (b.map some ++ [some 0]) by simp, List.drop_left' (by simp)]
  have hl3 : m3.length = m.length := by rw [← hm3]; simp [t4]; omega
  obtain ⟨d', o', u1, u2, u3, u4, u5⟩ := C42_trimWhitespace (m3.drop (line + a.length + 1)) b ⟨h0.2, _, hd3⟩
  have htr2 : trimAt m3 (line + a.length + 1) = some (m3.take (line + a.length + 1) ++ d', line + a.length + 1 + o') := by simp [trimAt, u1]
  generalize hm4 : m3.take (line + a.length + 1) ++ d' = m4 at htr2
  have htl3 : (m3.take (line + a.length + 1)).length = line + a.length + 1 := by simp; omega
  have hval : HoldsStr (m4.drop (line + a.length + 1 + o')) (trim space b) := by
    rw [← hm4, ← List.drop_drop, List.drop_left' htl3]; exact u3
  have hl4 : m4.length = m.length := by rw [← hm4]; simp [u4]; omega
  have hfull := holds_full hval (by rw [hl4, hlen, u2]; have := trim_len_eq hb; omega)
  have hf := filteredCopy_dangling m4 _ _ hval.1 hfull hd
  simp [parseTail, hw, htr1, htr2, hf]

end Env

open EnvSpec in
/-- C53, partial. For every line in a block of any size: a blank line, a comment, a line without `=` or without a key gives nothing; an assignment
`a = b` whose value has an unescaped quote in the middle gives nothing; every other assignment whose value does not end in a lone backslash gives the
trimmed key and the decoded value, as strings inside the line. No access is outside the line's block. Missing: values ending in a lone backslash,
where the code runs past the end (next theorem). -/
theorem C53_line_partial (m : List (Option UInt8)) (s : List UInt8) (h : HoldsStr m s) :
    ((¬ ∃ a b, Assignment s a b) → Env.parseEnvLine m = some none) ∧
    (∀ a b, Assignment s a b → EnvSpec.value (trim space b) = .badQuote → Env.parseEnvLine m = some none) ∧
    (∀ a b u, Assignment s a b → EnvSpec.value (trim space b) = .text u →
      ∃ m' k v, Env.parseEnvLine m = some (some (m', k, v)) ∧ HoldsStr (m'.drop k) (trim space a) ∧ HoldsStr (m'.drop v) u) := by
  obtain ⟨m1, off, h1, _, h3, h4, _⟩ := C42_trimWhitespace m s h
  have htr : Env.trimAt m 0 = some (m1, off) := by simp [Env.trimAt, h1]
  have hstr := CMem.str_holds h3
  have h3' := h3
  obtain ⟨h0, rest, hm1⟩ := h3'
  have key : Env.parseEnvLine m = (CMem.get m1 off).bind fun c =>
      if c = 0 then some none else if c = 35 then some none else
        (Env.strchr m1 off 61).bind fun eq => match eq with | none => some none | some eq => if eq = off then some none else Env.parseTail m1 off eq := by
    unfold Env.parseEnvLine
    rw [htr]
    simp only [Option.bind_eq_bind, Option.bind_some]
    rfl
  cases ht : trim space s with
  | nil =>
    rw [ht] at hm1
    have hg := Env.get_end hm1
    simp at hg
    rw [key, hg]
    have hno : ∀ a b, ¬ Assignment s a b := by
      rintro a b ⟨e, _⟩
      rw [ht] at e; simp at e
    exact ⟨fun _ => rfl, fun a b hab => absurd hab (hno a b), fun a b u hab => absurd hab (hno a b)⟩
  | cons c t =>
    rw [ht] at hm1 h0 hstr h3
    have hg := Env.get_at hm1 0 (by simp)
    simp at hg
    have hc0 : c ≠ 0 := by rintro rfl; simp at h0
    rw [key, hg]
    simp only [Option.bind_some, if_neg hc0]
    by_cases hc : c = 35
    · rw [if_pos hc]
      have hno : ∀ a b, ¬ Assignment s a b := by
        rintro a b ⟨e, _, ha, hh⟩
        rw [ht] at e
        cases a with
        | nil => exact ha rfl
        | cons x a => simp at e hh; exact hh (by rw [← e.1, hc])
      exact ⟨fun _ => rfl, fun a b hab => absurd hab (hno a b), fun a b u hab => absurd hab (hno a b)⟩
    · rw [if_neg hc]
      simp only [Env.strchr, hstr, Option.bind_eq_bind, Option.bind_some]
      by_cases hmem : 61 ∈ c :: t
      · rw [if_pos hmem]
        simp only [Option.bind_some]
        obtain ⟨b, hb, hna⟩ := Env.split_assignment _ hmem
        have huniq : ∀ a' b', Assignment s a' b' → a' = (c :: t).takeWhile (· ≠ 61) ∧ b' = b := by
          rintro a' b' ⟨e, ha, _, _⟩
          rw [ht] at e
          have h1 := Env.assignment_split _ a' b' e ha
          refine ⟨h1.symm, ?_⟩
          rw [← h1] at e
          have : (c :: t).takeWhile (· ≠ 61) ++ [61] ++ b' = (c :: t).takeWhile (· ≠ 61) ++ [61] ++ b := by rw [← e]; exact hb
          exact List.append_cancel_left this
        generalize ha : (c :: t).takeWhile (· ≠ 61) = a at *
        by_cases hlen : a.length = 0
        · rw [if_pos (by omega)]
          have hno : ∀ a' b', ¬ Assignment s a' b' := by
            intro a' b' hab
            have := (huniq a' b' hab).1
            exact hab.2.2.1 (by rw [this]; exact List.length_eq_zero_iff.1 hlen)
          exact ⟨fun _ => rfl, fun a b hab => absurd hab (hno a b), fun a b u hab => absurd hab (hno a b)⟩
        · rw [if_neg (by omega)]
          have hab : Assignment s a b := by
            refine ⟨by rw [ht]; exact hb, hna, fun e => hlen (by simp [e]), ?_⟩
            cases a with
            | nil => simp at hlen
            | cons x a => simp at hb ⊢; rw [← hb.1]; exact hc
          rw [hb] at h3
          obtain ⟨p1, p2⟩ := Env.parseTail_ok m1 off a b h3
          refine ⟨fun hn => absurd ⟨a, b, hab⟩ hn, ?_, ?_⟩
          · intro a' b' hab'
            obtain ⟨rfl, rfl⟩ := huniq a' b' hab'
            exact p1
          · intro a' b' u hab'
            obtain ⟨rfl, rfl⟩ := huniq a' b' hab'
            exact p2 u
      · rw [if_neg hmem]
        have hno : ∀ a b, ¬ Assignment s a b := by
          rintro a b ⟨e, _⟩
          rw [ht] at e
          exact hmem (by rw [e]; simp)
        exact ⟨fun _ => rfl, fun a b hab => absurd hab (hno a b), fun a b u hab => absurd hab (hno a b)⟩

example : EnvSpec.Assignment [32, 75, 61, 34, 97, 92, 110, 34, 10] [75] [34, 97, 92, 110, 34] ∧ EnvSpec.value [34, 97, 92, 110, 34] = .text [97, 10] ∧
    Env.parseEnvLine [some 75, some 61, some 39, some 97, some 39, some 0] = some (some ([some 75, some 0, some 97, some 0, some 39, some 0], 0, 2)) := by
  refine ⟨⟨by decide, by decide, by decide, by decide⟩, by decide, by decide⟩

/-- Finding: a value that ends in a lone backslash makes `filtered_copy` step over the terminator and read beyond the line. -/
theorem C53_trailing_backslash_reads_past_end : Env.parseEnvLine [some 75, some 61, some 97, some 92, some 0] = none := by decide

open EnvSpec in
/-- C53, exactly which lines take the parser out of the line. For every line that does not end in white space, in a block of just its size (as the line
reader makes them): the parser leaves the block if and only if the line is an assignment whose value ends in a lone backslash. -/
theorem C53_reads_past_the_end_exactly (s : List UInt8) (h0 : 0 ∉ s) (hs : ∀ c, s.getLast? = some c → space c = false) :
    Env.parseEnvLine (s.map some ++ [some 0]) = none ↔ ∃ a b, Assignment s a b ∧ EnvSpec.value (trim space b) = .dangling := by
  have hh : HoldsStr (s.map some ++ [some 0]) s := ⟨h0, [], rfl⟩
  obtain ⟨c1, c2, c3⟩ := C53_line_partial _ s hh
  constructor
  · intro hn
    refine Classical.byContradiction fun hc => ?_
    by_cases hA : ∃ a b, Assignment s a b
    · obtain ⟨a, b, hab⟩ := hA
      cases hv : EnvSpec.value (trim space b) with
      | badQuote => rw [c2 a b hab hv] at hn; cases hn
      | text u => obtain ⟨m', k, v, e, _⟩ := c3 a b u hab hv; rw [e] at hn; cases hn
      | dangling => exact hc ⟨a, b, hab, hv⟩
    · rw [c1 hA] at hn; cases hn
  · rintro ⟨a, b, hab, hd⟩
    obtain ⟨hsplit, hna, hane, hcom⟩ := hab
    obtain ⟨m1, off, t1, t2, t3, t4, _⟩ := C42_trimWhitespace (s.map some ++ [some 0]) s hh
    have htr : Env.trimAt (s.map some ++ [some 0]) 0 = some (m1, off) := by simp [Env.trimAt, t1]
    have hfull : m1.drop off = (a ++ [61] ++ b).map some ++ [some 0] := by
      rw [← hsplit]
      exact Env.holds_full t3 (by rw [t4, t2, Env.trim_len_eq hs]; simp)
    have h0' : 0 ∉ a ++ [61] ++ b := by rw [← hsplit]; exact t3.1
    cases a with
    | nil => exact absurd rfl hane
    | cons c a =>
      have hg := Env.get_at (rest := []) hfull 0 (by simp)
      simp at hg
      have hc0 : c ≠ 0 := by rintro rfl; simp at h0'
      have hc35 : c ≠ 35 := by intro e; exact hcom (by simp [e])
      have hmem : 61 ∈ c :: a ++ [61] ++ b := by simp
      have hstr : CMem.str (m1.drop off) = some (c :: a ++ [61] ++ b) := CMem.str_holds ⟨h0', [], hfull⟩
      have htw : (c :: a ++ [61] ++ b).takeWhile (· ≠ 61) = c :: a := Env.assignment_split _ _ b rfl hna
      have hb : ∀ x, b.getLast? = some x → space x = false := by
        intro x hx
        apply hs
        have h1 : (trim space s).getLast? = some x := by
          rw [hsplit, List.getLast?_append, hx]; rfl
        rw [trim, Env.trimRight_id ?_] at h1
        · rw [← List.takeWhile_append_dropWhile (p := space) (l := s), List.getLast?_append, h1]; rfl
        · intro y hy
          apply hs
          rw [← List.takeWhile_append_dropWhile (p := space) (l := s), List.getLast?_append, hy]; rfl
      have htail := Env.parseTail_dangling m1 off (c :: a) b h0' hfull hb hd
      have hsc : Env.strchr m1 off 61 = some (some (off + (c :: a).length)) := by
        simp only [Env.strchr, hstr, Option.bind_eq_bind, Option.bind_some, if_pos hmem, htw]
      unfold Env.parseEnvLine
      rw [htr]
      simp only [Option.bind_eq_bind, Option.bind_some, hg, if_neg hc0, if_neg hc35, hsc]
      rw [if_neg (by simp), htail]

/-- Non-vacuity: both sides, with and without quotes. -/
example : EnvSpec.Assignment [75, 61, 97, 92] [75] [97, 92] ∧ EnvSpec.value [97, 92] = .dangling ∧ EnvSpec.value [34, 97, 92] = .dangling ∧
    EnvSpec.value [97, 92, 92] = .text [97, 92] := by
  refine ⟨⟨by decide, by decide, by decide, by decide⟩, by decide, by decide, by decide⟩
