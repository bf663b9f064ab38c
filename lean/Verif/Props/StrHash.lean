import Verif.Model.StrHash
import Verif.Props.StrCompare
import Verif.Spec.Map
import Verif.Model.Bytes
/-! # C157: string hashes -/
namespace StrHash

theorem mul_shift (h : BitVec 32) (k : Nat) : h + (h <<< k) = h * (1#32 + BitVec.twoPow 32 k) := by
  rw [BitVec.shiftLeft_eq_mul_twoPow, BitVec.mul_add, BitVec.mul_one]

theorem mul_inj {a b m : BitVec 32} (inv : BitVec 32) (hm : m * inv = 1#32) (h : a * m = b * m) : a = b := by
  have := congrArg (· * inv) h
  simp only [BitVec.mul_assoc, hm, BitVec.mul_one] at this
  exact this

theorem xorshift_inj {a b : BitVec 32} {k : Nat} (hk : 0 < k) (h : a ^^^ (a >>> k) = b ^^^ (b >>> k)) : a = b := by
  have h1 : (a ^^^ b) = (a ^^^ b) >>> k := by
    rw [BitVec.ushiftRight_xor_distrib]
    have : a ^^^ (a >>> k) ^^^ (b ^^^ (b >>> k)) = 0#32 := by rw [h, BitVec.xor_self]
    apply BitVec.eq_of_getLsbD_eq
    intro i hi
    have := congrArg (fun x : BitVec 32 => x.getLsbD i) this
    simp only [BitVec.getLsbD_xor, BitVec.getLsbD_zero] at this ⊢
    revert this
    cases a.getLsbD i <;> cases b.getLsbD i <;> cases (a >>> k).getLsbD i <;> cases (b >>> k).getLsbD i <;> simp
  have h2 : (a ^^^ b).toNat = (a ^^^ b).toNat / 2 ^ k := by
    have := congrArg BitVec.toNat h1
    rwa [BitVec.toNat_ushiftRight, Nat.shiftRight_eq_div_pow] at this
  have h3 : (a ^^^ b).toNat = 0 := by
    apply Classical.byContradiction
    intro hne
    have : (a ^^^ b).toNat / 2 ^ k < (a ^^^ b).toNat := Nat.div_lt_self (Nat.pos_of_ne_zero hne) (Nat.one_lt_two_pow (by omega))
    omega
  have h4 : a ^^^ b = 0#32 := BitVec.eq_of_toNat_eq h3
  exact BitVec.xor_eq_zero_iff.1 h4

theorem turn_seed {a b : BitVec 32} {c : UInt8} (h : turn a c = turn b c) : a = b := by
  have h1 := xorshift_inj (by decide) h
  rw [mul_shift, mul_shift] at h1
  have h2 := mul_inj (inv := 3222273025#32) (by decide) h1
  exact (BitVec.add_left_inj _).1 h2

theorem turn_byte {a : BitVec 32} {c d : UInt8} (h : turn a c = turn a d) : c = d := by
  have h1 := xorshift_inj (by decide) h
  rw [mul_shift, mul_shift] at h1
  have h2 := mul_inj (inv := 3222273025#32) (by decide) h1
  have h3 := (BitVec.add_right_inj _).1 h2
  have h4 := congrArg BitVec.toNat h3
  have := c.toNat_lt; have := d.toNat_lt
  simp only [BitVec.toNat_ofNat] at h4
  exact UInt8.toNat_inj.1 (by omega)

theorem final_inj {a b : BitVec 32} (h : final a = final b) : a = b := by
  unfold final at h
  simp only at h
  rw [mul_shift _ 15, mul_shift _ 15] at h
  have h1 := xorshift_inj (by decide) (mul_inj (inv := 1073709057#32) (by decide) h)
  rw [mul_shift, mul_shift] at h1
  exact mul_inj (inv := 954437177#32) (by decide) h1

theorem fold_inj (s : List UInt8) : ∀ {a b : BitVec 32}, s.foldl turn a = s.foldl turn b → a = b := by
  induction s with
  | nil => intro a b h; exact h
  | cons c s ih => intro a b h; exact turn_seed (ih h)

theorem str_block (s : List UInt8) (h : 0 ∉ s) (rest : List (Option UInt8)) : CMem.str (s.map some ++ some 0 :: rest) = some s := by
  induction s with
  | nil => rfl
  | cons c s ih =>
    have h1 : c ≠ 0 := fun e => h (by simp [e])
    rw [List.map_cons, List.cons_append, CMem.str, if_neg h1, ih fun e => h (by simp [e])]; rfl

/-- **C157.** The hash is a function of the bytes before the terminator and the seed, whatever the memory behind. -/
theorem C157_depends_on_the_string (s : List UInt8) (h : 0 ∉ s) (r1 r2 : List (Option UInt8)) (seed : BitVec 32) :
    stringHash (s.map some ++ some 0 :: r1) seed = stringHash (s.map some ++ some 0 :: r2) seed ∧ (stringHash (s.map some ++ some 0 :: r1) seed).isSome = true := by
  rw [stringHash, stringHash, str_block s h, str_block s h]; exact ⟨rfl, rfl⟩

/-- **C157.** For a given string, different seeds give different hashes: the hash is a permutation of the seeds. -/
theorem C157_seeds_are_permuted (s : List UInt8) (h : 0 ∉ s) (r : List (Option UInt8)) (a b : BitVec 32) :
    stringHash (s.map some ++ some 0 :: r) a = stringHash (s.map some ++ some 0 :: r) b ↔ a = b := by
  rw [stringHash, stringHash, str_block s h]
  simp only [Option.map_some, Option.some.injEq]
  exact ⟨fun e => fold_inj s (final_inj e), fun e => by rw [e]⟩

/-- **C157.** Two strings that differ in one byte, at any place, have different hashes under every seed. -/
theorem C157_one_byte_changes_the_hash (p q : List UInt8) (c d : UInt8) (hp : 0 ∉ p) (hq : 0 ∉ q) (hc : c ≠ 0) (hd : d ≠ 0) (hcd : c ≠ d) (r1 r2 : List (Option UInt8)) (seed : BitVec 32) :
    stringHash ((p ++ c :: q).map some ++ some 0 :: r1) seed ≠ stringHash ((p ++ d :: q).map some ++ some 0 :: r2) seed := by
  rw [stringHash, stringHash, str_block _ (by simp [hp, hq, Ne.symm hc]), str_block _ (by simp [hp, hq, Ne.symm hd])]
  simp only [Option.map_some, ne_eq, Option.some.injEq, List.foldl_append, List.foldl_cons]
  intro e
  exact hcd (turn_byte (fold_inj q (final_inj e)))

/-- **C157.** String maps and sets may use it with `StringEqual`: the keys are addresses of strings in some memory `m`; equality is an equivalence and equal keys have equal hashes, for every seed. So
the theorems about maps and sets (C07, C08 and others) hold for them. -/
theorem C157_lawful_for_maps (mag : List UInt8 → List UInt8 → Nat) (m : Nat → List UInt8) (seed : BitVec 32) :
    MapSpec.Lawful (K := Nat) ⟨fun a b => (Str.equal mag (some (a, m a)) (some (b, m b))).getD false, fun a => ((stringHash ((m a).map some ++ [some 0]) seed).getD 0).toNat⟩ := by
  have e : ∀ a b, (Str.equal mag (some (a, m a)) (some (b, m b))).getD false = decide (m a = m b) := by
    intro a b
    rw [(C66_equal mag 0 (some (a, m a)) (some (b, m b)) (by rintro x y ⟨⟩ ⟨⟩; intro h; exact congrArg m h)).1]
    simp [Str.bytes]
  refine ⟨fun a => ?_, fun a b h => ?_, fun a b c h1 h2 => ?_, fun a b h => ?_⟩
  · show (Str.equal mag (some (a, m a)) (some (a, m a))).getD false = true
    rw [e]; simp
  · have h : (Str.equal mag (some (a, m a)) (some (b, m b))).getD false = true := h
    show (Str.equal mag (some (b, m b)) (some (a, m a))).getD false = true
    rw [e] at h ⊢; simp at h ⊢; exact h.symm
  · have h1 : (Str.equal mag (some (a, m a)) (some (b, m b))).getD false = true := h1
    have h2 : (Str.equal mag (some (b, m b)) (some (c, m c))).getD false = true := h2
    show (Str.equal mag (some (a, m a)) (some (c, m c))).getD false = true
    rw [e] at h1 h2 ⊢; simp at h1 h2 ⊢; exact h1.trans h2
  · have h : (Str.equal mag (some (a, m a)) (some (b, m b))).getD false = true := h
    rw [e] at h
    show ((stringHash ((m a).map some ++ [some 0]) seed).getD 0).toNat = _
    rw [of_decide_eq_true h]

/-- "a" with seed 0, as by the reference implementation; the empty string. -/
example : stringHash [some 97, some 0] 0 = some 0xca2e9442#32 ∧ stringHash [some 0] 0 = some 0 ∧ stringHash [some 97] 0 = none := by decide +kernel

end StrHash
