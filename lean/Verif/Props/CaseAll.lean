import Verif.Props.Trim

/-! C43: what `ToUpperStrInplace` does to every string. -/
open StrSpec TrimSpec CMem

/-- C43, every string. `ToUpperStrInplace` changes each byte before the terminator: graphic ASCII characters to upper case, every other byte by -32 (modulo
256); nothing else changes. So the string left is the part before the first blank, which becomes a NUL. -/
theorem C43_toUpperStr_any (m : List (Option UInt8)) (s : List UInt8) (hm : HoldsStr m s) :
    ∃ m', Str.toUpperStr m = some m' ∧ m' = (s.map fun c => if graphic c then upper c else c - 32).map some ++ m.drop s.length ∧
      HoldsStr m' ((s.takeWhile (· != 32)).map fun c => if graphic c then upper c else c - 32) := by
  obtain ⟨h0, rest, rfl⟩ := hm
  have := Str.mapLoop_ok Str.toUpper ((s.map some ++ some 0 :: rest).length + 1) [] s rest h0 (by simp; omega)
  simp only [List.map_nil, List.nil_append, List.length_nil] at this
  have hf : ∀ c, Str.toUpper c = if graphic c then upper c else c - 32 :=
    fun c => Str.byte_all (P := fun c => Str.toUpper c = if graphic c then upper c else c - 32) (by decide +kernel) c
  have hmap : s.map Str.toUpper = s.map fun c => if graphic c then upper c else c - 32 := List.map_congr_left fun c _ => hf c
  rw [hmap] at this
  refine ⟨_, this, by simp, ?_⟩
  have hz : ∀ c : UInt8, c ≠ 0 → c ≠ 32 → (if graphic c then upper c else c - 32) ≠ 0 :=
    fun c => Str.byte_all (P := fun c : UInt8 => c ≠ 0 → c ≠ 32 → (if graphic c then upper c else c - 32) ≠ 0) (by decide +kernel) c
  refine ⟨?_, ?_⟩
  · intro hmem
    obtain ⟨c, hc, he⟩ := List.mem_map.1 hmem
    have h1 : c ≠ 0 := fun e => h0 (e ▸ (List.takeWhile_subset _ hc))
    have h2 : (c != 32) = true := by
      have := List.all_takeWhile (p := (· != 32)) (l := s)
      rw [List.all_eq_true] at this
      exact this c hc
    exact hz c h1 (by simpa using h2) he
  · have hsplit : s = s.takeWhile (· != 32) ++ s.dropWhile (· != 32) := List.takeWhile_append_dropWhile.symm
    cases hd : s.dropWhile (· != 32) with
    | nil =>
      rw [hd, List.append_nil] at hsplit
      rw [← hsplit]
      exact ⟨rest, rfl⟩
    | cons d t =>
      have hd32 : d = 32 := by
        have := List.head?_dropWhile_not (· != 32) s
        rw [hd] at this
        simpa using this
      subst hd32
      rw [hd] at hsplit
      refine ⟨(t.map fun c => if graphic c then upper c else c - 32).map some ++ some 0 :: rest, ?_⟩
      conv => lhs; rw [hsplit]
      simp [graphic]

example : Str.toUpperStr [some 97, some 32, some 98, some 0] = some [some 65, some 0, some 66, some 0] ∧ Str.toUpperStr [some 233, some 0] = some [some 201, some 0] := by decide
