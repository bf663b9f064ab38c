import Verif.Lemmas.SnprintfFlt
/-! # C132, C133: formatted output of floating-point numbers (libcompat/snprintf.c) -/
open Snprintf Snprintf.Spec

/-- C132, partial. A format with the conversions e, E, f, F, g, G for floating-point numbers besides those of C99's other conversions, with every flag, width and precision (also `*`), and arguments
of the types it asks for: there is a text that keeps to the C99 rules, for each number the decimal digits nearest to its value within the accuracy stated in `FixedOk` and `SciOk`, and as much of it
is stored as fits. Missing: the numbers and precisions left out by `FItem.ok`, where the code deviates (see the findings below). -/
theorem C132_float_text_is_that_of_the_standard_partial (ps : List FPiece) (args : List Arg) (is : List Item2) (hwf : ∀ p ∈ ps, p.wf) (hr : fresolve ps args = some is) (hok : ∀ i ∈ is, i.ok)
    (blk : List (Option UInt8)) (size : Nat) (hs : size ≤ blk.length) :
    ∃ t, Prints is t ∧ vsnprintf [] (some blk) size (funparse ps) args = some (filled blk size t, if t.length ≥ 2147483647 then -1 else (t.length : Int), []) := by
  obtain ⟨t, as', h1, h2⟩ := run_fpieces ps args is ⟨blk, 0⟩ hs hwf hr hok
  refine ⟨t, h1, ?_⟩
  show ((run [] size (funparse ps) { args := args } ⟨blk, 0⟩).bind fun r => (terminate size r.2).map fun b => (b, if r.1.overflow ∨ r.2.len ≥ 2147483647 then -1 else (r.2.len : Int), r.1.stores)) = _
  rw [h2, Option.bind_some, terminate_emit hs]
  simp only [Option.map_some, emit_len, Nat.zero_add, Bool.false_eq_true, false_or]

/-- "%.2f|%d" with 2.5 and 7. -/
example : ∃ t, Prints [.flt ⟨.f, .fin false ⟨5, -1⟩, false, false, false, false, false, 0, some 2⟩, .plain (.chr 124), .plain (.int .d 7 false false false false false 0 none)] t ∧
    vsnprintf [] (some (List.replicate 8 none)) 8 [37, 46, 50, 102, 124, 37, 100] [.dbl (.fin false ⟨5, -1⟩), .w32 7] =
      some (filled (List.replicate 8 none) 8 t, if t.length ≥ 2147483647 then -1 else (t.length : Int), []) := by
  refine C132_float_text_is_that_of_the_standard_partial [.flt ⟨[], .absent, .lit [2], .none, .f⟩, .plain (.chr 124), .plain (.dir ⟨[], .absent, .absent, .none, .int .d⟩)] _ _ ?_ rfl ?_ _ _ (by simp)
  · intro p hp
    simp only [List.mem_cons, List.not_mem_nil, or_false] at hp
    rcases hp with rfl | rfl | rfl
    · exact ⟨fun n h => (by cases h), .inl rfl⟩
    · show (124 : UInt8) ≠ 37; decide
    · exact ⟨fun n h => (by cases h), by decide, fun h => by simp at h⟩
  · intro i hi
    simp only [List.mem_cons, List.not_mem_nil, or_false] at hi
    rcases hi with rfl | rfl | rfl
    · intro n v h
      cases h
      refine ⟨by norm_num, by norm_num [mag], by decide⟩
    · trivial
    · exact ⟨by decide, by simp, by simp⟩
/-- The text is "2.50|7". -/
example : vsnprintf [] (some (List.replicate 8 none)) 8 [37, 46, 50, 102, 124, 37, 100] [.dbl (.fin false ⟨5, -1⟩), .w32 7] =
    some ([some 50, some 46, some 53, some 48, some 124, some 55, some 0, none], 6, []) := by decide +kernel
/-- "%e" of 12345.5 is "1.234550e+04", "%+010.3G" of -0.0001220703125 (2^-13) is "-0.0001221", "%g" of 1000000 is "1e+06". -/
example : (vsnprintf [] (some (List.replicate 16 none)) 16 [37, 101] [.dbl (.fin false ⟨24691, -1⟩)]).map (fun r => (r.1.take 12, r.2.1)) =
    some ([49, 46, 50, 51, 52, 53, 53, 48, 101, 43, 48, 52].map some, 12) := by decide +kernel
example : (vsnprintf [] (some (List.replicate 16 none)) 16 [37, 43, 48, 49, 48, 46, 52, 71] [.dbl (.fin true ⟨1, -13⟩)]).map (fun r => (r.1.take 10, r.2.1)) =
    some ([45, 48, 46, 48, 48, 48, 49, 50, 50, 49].map some, 10) := by decide +kernel
example : (vsnprintf [] (some (List.replicate 16 none)) 16 [37, 103] [.dbl (.fin false ⟨1000000, 0⟩)]).map (fun r => (r.1.take 5, r.2.1)) =
    some ([49, 101, 43, 48, 54].map some, 5) := by decide +kernel

/-- The relation is a tight one: of two numbers that `FixedOk` allows, with at most 17 digits after the point, the one is not more than one greater than the other, and they differ only if the value times 10^p is
that close to the middle between them. -/
theorem C132_digits_determined (x : ℚ) (p N M : Nat) (hp : p ≤ 17) (hN : FixedOk x p N) (hM : FixedOk x p M) (h : N < M) :
    M = N + 1 ∧ |x * 10 ^ p - (N + 1 / 2)| ≤ 10 ^ p / 2 ^ 64 := by
  have h1 := abs_le.1 hN.1
  have h2 := abs_le.1 hM.1
  have hP : (10 : ℚ) ^ p ≤ 10 ^ 17 := pow_le_pow_right₀ (by norm_num) hp
  have hu : (10 : ℚ) ^ p / 2 ^ 64 ≤ 1 / 4 := by
    rw [div_le_div_iff₀ (by positivity) (by norm_num)]; linarith
  have hMN : M = N + 1 := by
    by_contra hc
    have : (N : ℚ) + 2 ≤ M := by exact_mod_cast (by omega : N + 2 ≤ M)
    linarith [h1.1, h2.2]
  refine ⟨hMN, ?_⟩
  have hq : (M : ℚ) = N + 1 := by exact_mod_cast hMN
  rw [hq] at h2
  rw [abs_le]
  constructor <;> linarith [h1.1, h1.2, h2.1, h2.2]
example : FixedOk (5 / 2) 0 3 := by
  refine ⟨by norm_num, fun _ => by norm_num⟩

/-! ## Findings -/

/-- Every number of 2^64 - 1 or more: `%f` prints nothing and returns -1, whatever the flags. -/
theorem C132_large_numbers_negated (neg : Bool) (v : Flt.Num) (hv : 2 ^ 64 - 1 ≤ mag v) (blk : List (Option UInt8)) (size : Nat) (hs : size ≤ blk.length) :
    vsnprintf [] (some blk) size [37, 102] [.dbl (.fin neg v)] = some (filled blk size [], -1, []) := by
  have hc : Flt.cast v = Flt.uintmax := Flt.cast_big (not_lt.2 (by
    have : ((Flt.uintmax : ℕ) : ℚ) = 2 ^ 64 - 1 := by norm_num [Flt.uintmax]
    rw [this]; exact hv))
  have hf : fmtflt [] size ⟨blk, 0⟩ (.fin neg v) 0 (-1) {} = some (true, ⟨blk, 0⟩) := by
    unfold fmtflt
    have hd : fltDigits v 6 false false 0 = none := by
      unfold fltDigits
      simp [fltParts, hc]
    show (match fltDigits v 6 false false 0 with | none => some (true, _) | some f => _) = _
    rw [hd]
  have hstep : step [] size { args := [.dbl (.fin neg v)], state := .flags } ⟨blk, 0⟩ 102 = some ({ args := [], overflow := true }, ⟨blk, 0⟩) := by
    show (fmtflt [] size ⟨blk, 0⟩ (.fin neg v) 0 (-1) {}).map _ = _
    rw [hf]; rfl
  have hrun : run [] size [37, 102] { args := [.dbl (.fin neg v)] } ⟨blk, 0⟩ = some ({ args := [], overflow := true }, ⟨blk, 0⟩) := by
    rw [run, show step [] size { args := [.dbl (.fin neg v)] } ⟨blk, 0⟩ 37 = some ({ args := [.dbl (.fin neg v)], state := .flags }, ⟨blk, 0⟩) from rfl, Option.bind_some, if_neg (by simp), run, hstep]
    rfl
  show ((run [] size [37, 102] { args := [.dbl (.fin neg v)] } ⟨blk, 0⟩).bind fun r => (terminate size r.2).map fun b => (b, if r.1.overflow ∨ r.2.len ≥ 2147483647 then -1 else (r.2.len : Int), r.1.stores)) = _
  have ht := terminate_emit hs []
  rw [hrun, Option.bind_some]
  rw [show emit size ⟨blk, 0⟩ [] = (⟨blk, 0⟩ : Out) from rfl] at ht
  rw [ht]
  rfl
/-- For example 1e20. -/
example : (2 : ℚ) ^ 64 - 1 ≤ mag ⟨100000000000000000000, 0⟩ := by norm_num [mag]

/-- The returned text for one directive, in a buffer of 40 bytes. -/
private def shown (fmt : Bytes) (a : Arg) : Option (List (Option UInt8)) := (vsnprintf [] (some (List.replicate 40 none)) 40 fmt [a]).map fun r => r.1.take r.2.1.toNat

/-- A negative zero is printed without its sign: "%.1f" gives "0.0". -/
theorem C132_negative_zero_negated : shown [37, 46, 49, 102] (.dbl (.fin true ⟨0, 0⟩)) = some ([48, 46, 48].map some) := by decide +kernel
/-- `%a` is not hexadecimal: "%.1a" of 1.0 gives "1.0". -/
theorem C132_hexadecimal_negated : shown [37, 46, 49, 97] (.dbl (.fin false ⟨1, 0⟩)) = some ([49, 46, 48].map some) := by decide +kernel
/-- Not more than 19 digits after the point: "%.20f" of 0.5 gives 19 of them. -/
theorem C132_precision_negated : shown [37, 46, 50, 48, 102] (.dbl (.fin false ⟨1, -1⟩)) = some (([48, 46, 53] ++ List.replicate 18 (48 : UInt8)).map some) := by decide +kernel
/-- "%Le" of the `long double` 0.001L gives "10.000000e-04": two digits before the point. -/
theorem C132_two_integer_digits_negated : shown [37, 76, 101] (.ldbl (.fin false ⟨0x83126e978d4fdf3b, -73⟩)) = some ([49, 48, 46, 48, 48, 48, 48, 48, 48, 101, 45, 48, 52].map some) := by decide +kernel
/-- "%.0e" of 9.7e99 (10^100, when rounded) gives "1e+00". -/
theorem C132_exponent_of_three_digits_negated : shown [37, 46, 48, 101] (.dbl (.fin false ⟨0x11bd39df556bb4, 280⟩)) = some ([49, 101, 43, 48, 48].map some) := by decide +kernel
/-- Numbers of 1e100 and more: "%e" of 1e105 gives "1000000.000000e+99", of 1e130 fails. -/
theorem C132_beyond_99_negated : shown [37, 101] (.dbl (.fin false ⟨0x1be7abd3781eca, 296⟩)) = some ([49, 48, 48, 48, 48, 48, 48, 46, 48, 48, 48, 48, 48, 48, 101, 43, 57, 57].map some) ∧
    vsnprintf [] (some [none]) 1 [37, 101] [.dbl (.fin false ⟨0x1cda62055b2d9e, 379⟩)] = some ([some 0], -1, []) := by constructor <;> decide +kernel
/-- Numbers below 1e-99: "%e" of 1e-105 gives "0.000001e-99". -/
theorem C132_below_minus_99_negated : shown [37, 101] (.dbl (.fin false ⟨0x125915cd68c9f9, -401⟩)) = some ([48, 46, 48, 48, 48, 48, 48, 49, 101, 45, 57, 57].map some) := by decide +kernel
/-- "%.17g" of 2^-13 (0.0001220703125) + 2^-65: 17 significant digits, 0.00012207031250000003, would need 20 digits after the point. -/
theorem C132_significant_digits_negated : shown [37, 46, 49, 55, 103] (.dbl (.fin false ⟨2 ^ 52 + 1, -65⟩)) = some ([48, 46, 48, 48, 48, 49, 50, 50, 48, 55, 48, 51, 49, 50, 53].map some) := by decide +kernel
