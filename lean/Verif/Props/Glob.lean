import Verif.Model.Glob
import Verif.Spec.Glob
import Verif.Props.Replace
import Verif.Props.Path
/-!
# C152: lists of files (libutils/file_lib.c `GlobFileList`, `ListDir`)
-/
open GlobSpec ReplaceSpec

namespace Glob

theorem levels_candidates : candidates = [levels 1, levels 2, levels 3, levels 4, levels 5, levels 6] := rfl

theorem setAdd_mem (set : List (List UInt8)) (s x : List UInt8) : x ∈ setAdd set s ↔ x ∈ set ∨ x = s := by
  unfold setAdd
  split
  · rename_i h
    rw [List.contains_iff_mem] at h
    constructor
    · exact .inl
    · rintro (h' | rfl)
      · exact h'
      · exact h
  · simp

theorem setAdd_nodup {set : List (List UInt8)} (s : List UInt8) (h : set.Nodup) : (setAdd set s).Nodup := by
  unfold setAdd
  split
  · exact h
  · rename_i hc
    rw [List.contains_iff_mem] at hc
    rw [List.nodup_append]
    exact ⟨h, by simp, fun a ha b hb => by simp at hb; subst hb; intro e; subst e; exact hc ha⟩

theorem foldAdd_mem (l : List (List UInt8)) : ∀ (set : List (List UInt8)) (x : List UInt8), x ∈ l.foldl setAdd set ↔ x ∈ set ∨ x ∈ l := by
  induction l with
  | nil => simp
  | cons a l ih =>
    intro set x
    rw [List.foldl_cons, ih, setAdd_mem]
    simp [or_assoc]

theorem foldAdd_nodup (l : List (List UInt8)) : ∀ (set : List (List UInt8)), set.Nodup → (l.foldl setAdd set).Nodup := by
  induction l with
  | nil => exact fun _ h => h
  | cons a l ih => exact fun set h => ih _ (setAdd_nodup a h)

theorem takeWhile_nul (s : List UInt8) (h : 0 ∉ s) : (s ++ [0]).takeWhile (fun x => decide (x ≠ 0)) = s := by
  induction s with
  | nil => simp
  | cons a s ih =>
    simp only [List.mem_cons, not_or] at h
    have ha : a ≠ 0 := fun e => h.1 e.symm
    simp only [List.cons_append, List.takeWhile_cons, ha, ne_eq, not_false_eq_true, decide_true, if_true]
    have := ih h.2
    simp only [ne_eq] at this
    rw [this]

theorem globOne_ok (glob : List UInt8 → Option (List (List UInt8))) (st : St) (p : List UInt8) (h0 : 0 ∉ p) (hn : st.set.Nodup) :
    ∃ set, globOne glob st (p ++ [0]) = some { st with set := set } ∧ set.Nodup ∧ ∀ f, f ∈ set ↔ f ∈ st.set ∨ ∃ l, glob p = some l ∧ f ∈ l := by
  unfold globOne
  rw [takeWhile_nul p h0]
  cases hg : glob p with
  | none => exact ⟨st.set, by simp, hn, by simp⟩
  | some l => exact ⟨l.foldl setAdd st.set, by simp, foldAdd_nodup l _ hn, fun f => by simp [foldAdd_mem]⟩

theorem replaced_nul {a b s o : List UInt8} (h : Replaced a b s o) (hs : 0 ∉ s) (hb : 0 ∉ b) : 0 ∉ o := by
  induction h with
  | done _ _ => exact hs
  | step pre rest out _ _ ih =>
    simp only [List.mem_append, not_or] at hs ⊢
    exact ⟨⟨hs.1.1, hb⟩, ih hs.2⟩

theorem globAll_ok (glob : List UInt8 → Option (List (List UInt8))) (pat : List UInt8) (h0 : 0 ∉ pat) (hl : pat.length ≤ 2147483647) :
    ∀ (cs : List (List UInt8)) (st : St), (∀ c ∈ cs, 0 ∉ c ∧ c.length ≤ 2147483647) → st.set.Nodup →
      ∃ set, globAll glob pat cs st = some { st with set := set } ∧ set.Nodup ∧
        ∀ f, f ∈ set ↔ f ∈ st.set ∨ ∃ c ∈ cs, ∃ out l, Replaced [42, 42] c pat out ∧ glob out = some l ∧ f ∈ l := by
  intro cs
  induction cs with
  | nil => exact fun st _ hn => ⟨st.set, rfl, hn, by simp⟩
  | cons c cs ih =>
    intro st hc hn
    obtain ⟨hc0, hcl⟩ := hc c (by simp)
    obtain ⟨out, ho, hr⟩ := C38_searchAndReplace pat [42, 42] c h0 hc0 hl hcl
    rw [if_neg (by simp)] at hr
    obtain ⟨s1, h1, n1, m1⟩ := globOne_ok glob st out (replaced_nul hr h0 hc0) hn
    obtain ⟨s2, h2, n2, m2⟩ := ih { st with set := s1 } (fun c hc' => hc c (by simp [hc'])) n1
    refine ⟨s2, by simp [globAll, ho, h1, h2], n2, fun f => ?_⟩
    rw [m2 f, m1 f]
    constructor
    · rintro ((h | ⟨l, a, b⟩) | ⟨c', a, b⟩)
      · exact .inl h
      · exact .inr ⟨c, by simp, out, l, hr, a, b⟩
      · exact .inr ⟨c', by simp [a], b⟩
    · rintro (h | ⟨c', hm, out', l, a, b, d⟩)
      · exact .inl (.inl h)
      · rcases List.mem_cons.1 hm with rfl | hm
        · rw [C38_replaced_unique _ _ _ _ _ (by simp) a hr] at b
          exact .inl (.inr ⟨l, b, d⟩)
        · exact .inr ⟨c', hm, out', l, a, b, d⟩

theorem strstr_isSome (s p : List UInt8) : (Str.strstr s p).isSome = true ↔ p <:+: s := by
  cases h : Str.strstr s p with
  | none => simpa using Str.strstr_none h
  | some i =>
    obtain ⟨a, _⟩ := Str.strstr_some h
    simp only [Option.isSome_some, true_iff]
    exact ⟨_, _, a.symm⟩

end Glob

/-- **C152** `GlobFileList`: whatever `glob` answers for each pattern, the set has exactly the files it finds for the pattern itself or, when the pattern contains `**`, for the
six patterns in which every `**` is replaced by one to six levels of `*`; each file is there once, and all that was allocated on the way is freed. -/
theorem C152_glob (glob : List UInt8 → Option (List (List UInt8))) (pat : List UInt8) (h0 : 0 ∉ pat) (hl : pat.length ≤ 2147483647) :
    ∃ set, Glob.globFileList glob pat = some ⟨set, 0, 0⟩ ∧ set.Nodup ∧ ∀ f, f ∈ set ↔
      ((¬ [42, 42] <:+: pat ∧ ∃ l, glob pat = some l ∧ f ∈ l) ∨
       ([42, 42] <:+: pat ∧ ∃ d out l, 1 ≤ d ∧ d ≤ 6 ∧ Replaced [42, 42] (levels d) pat out ∧ glob out = some l ∧ f ∈ l)) := by
  unfold Glob.globFileList
  by_cases hs : [42, 42] <:+: pat
  · rw [if_pos ((Glob.strstr_isSome _ _).2 hs)]
    obtain ⟨set, h1, h2, h3⟩ := Glob.globAll_ok glob pat h0 hl Glob.candidates ⟨[], 0, 0⟩ (by decide) (by simp)
    refine ⟨set, h1, h2, fun f => ?_⟩
    rw [h3 f]
    simp only [hs, not_true_eq_false, false_and, false_or, true_and, List.not_mem_nil, Glob.levels_candidates]
    constructor
    · rintro ⟨c, hc, out, l, a⟩
      simp only [List.mem_cons, List.not_mem_nil, or_false] at hc
      rcases hc with rfl | rfl | rfl | rfl | rfl | rfl
      · exact ⟨1, out, l, by omega, by omega, a⟩
      · exact ⟨2, out, l, by omega, by omega, a⟩
      · exact ⟨3, out, l, by omega, by omega, a⟩
      · exact ⟨4, out, l, by omega, by omega, a⟩
      · exact ⟨5, out, l, by omega, by omega, a⟩
      · exact ⟨6, out, l, by omega, by omega, a⟩
    · rintro ⟨d, out, l, d1, d2, a⟩
      refine ⟨levels d, ?_, out, l, a⟩
      have : d = 1 ∨ d = 2 ∨ d = 3 ∨ d = 4 ∨ d = 5 ∨ d = 6 := by omega
      rcases this with rfl | rfl | rfl | rfl | rfl | rfl <;> simp
  · rw [if_neg (fun h => hs ((Glob.strstr_isSome _ _).1 h))]
    obtain ⟨set, h1, h2, h3⟩ := Glob.globOne_ok glob ⟨[], 0, 0⟩ pat h0 (by simp)
    refine ⟨set, h1, h2, fun f => ?_⟩
    rw [h3 f]
    simp [hs]

/-! ## In a tree -/

namespace Glob

theorem compMatch_star (s : List UInt8) : compMatch [42] s = true := by
  simp only [compMatch, if_true, List.any_eq_true, List.mem_range]
  exact ⟨s.length, by omega, by simp⟩

theorem compMatch_lit (p s : List UInt8) (h : ∀ c ∈ p, ordinary c) : compMatch p s = true ↔ p = s := by
  induction p generalizing s with
  | nil => cases s <;> simp [compMatch]
  | cons x p ih =>
    obtain ⟨h42, h63, _⟩ := h x (by simp)
    rw [compMatch.eq_def]
    simp only [if_neg h42]
    cases s with
    | nil => simp
    | cons c s =>
      simp [ih s (fun c hc => h c (by simp [hc])), h63]

theorem visible_lit (s : List UInt8) : visible s s = true := by
  unfold visible
  by_cases h : s.head? = some 46
  · rw [h]; rfl
  · simp [h]

theorem pieces_one (s : List UInt8) (h : (47 : UInt8) ∉ s) : TokenSpec.pieces (· == 47) s = [s] := by
  induction s with
  | nil => rfl
  | cons c s ih =>
    simp only [List.mem_cons, not_or] at h
    have hc : (c == 47) = false := by simpa using fun e : c = 47 => h.1 e.symm
    simp [TokenSpec.pieces, hc, ih h.2]

theorem pieces_cons (s r : List UInt8) (h : (47 : UInt8) ∉ s) :
    TokenSpec.pieces (· == 47) (s ++ 47 :: r) = s :: TokenSpec.pieces (· == 47) r := by
  induction s with
  | nil => simp [TokenSpec.pieces]
  | cons c s ih =>
    simp only [List.mem_cons, not_or] at h
    have hc : (c == 47) = false := by simpa using fun e : c = 47 => h.1 e.symm
    simp [TokenSpec.pieces, hc, ih h.2]

theorem pieces_levels (d : Nat) : TokenSpec.pieces (· == 47) (levels (d + 1)) = List.replicate (d + 1) [42] := by
  induction d with
  | zero => rfl
  | succ d ih =>
    have := pieces_cons [42] (levels (d + 1)) (by simp)
    simp only [List.cons_append, List.nil_append] at this
    rw [levels, this, ih]
    rfl

theorem pieces_dir (dir : List (List UInt8)) (hne : dir ≠ []) (ho : ∀ c ∈ dir, ∀ b ∈ c, ordinary b) (r : List UInt8) :
    TokenSpec.pieces (· == 47) (text dir ++ 47 :: r) = dir ++ TokenSpec.pieces (· == 47) r := by
  induction dir with
  | nil => exact absurd rfl hne
  | cons c dir ih =>
    have hc : (47 : UInt8) ∉ c := fun hm => (ho c (by simp) 47 hm).2.2.2.2.1 rfl
    cases dir with
    | nil => simpa [text] using pieces_cons c r hc
    | cons e dir =>
      have := ih (by simp) (fun c hc => ho c (by simp [hc]))
      rw [text, List.append_assoc, List.cons_append, pieces_cons c _ hc, this]
      · rfl
      · simp

theorem pathMatch_stars (path : List (List UInt8)) (d : Nat) :
    pathMatch (List.replicate d [42]) path = true ↔ path.length = d ∧ ∀ c ∈ path, c.head? ≠ some 46 := by
  induction path generalizing d with
  | nil => cases d <;> simp [pathMatch, List.replicate_succ]
  | cons c path ih =>
    cases d with
    | zero => simp [pathMatch]
    | succ d =>
      rw [List.replicate_succ, pathMatch, compMatch_star]
      simp only [Bool.true_and, Bool.and_eq_true, ih, List.length_cons, Nat.add_right_cancel_iff, List.mem_cons, forall_eq_or_imp, visible]
      have : (([42] : List UInt8).head? == some 46) = false := rfl
      rw [this]
      simp only [Bool.or_false, bne_iff_ne, ne_eq]
      constructor <;> (rintro ⟨a, b, c⟩; exact ⟨b, a, c⟩)

theorem pathMatch_dir (dir : List (List UInt8)) (ho : ∀ c ∈ dir, ∀ b ∈ c, ordinary b) (ps path : List (List UInt8)) :
    pathMatch (dir ++ ps) path = true ↔ ∃ rest, path = dir ++ rest ∧ pathMatch ps rest = true := by
  induction dir generalizing path with
  | nil => simp
  | cons c dir ih =>
    cases path with
    | nil => simp [pathMatch]
    | cons s path =>
      rw [List.cons_append, pathMatch]
      simp only [Bool.and_eq_true, compMatch_lit c s (ho c (by simp)), ih (fun c hc => ho c (by simp [hc]))]
      constructor
      · rintro ⟨⟨rfl, _⟩, rest, rfl, h⟩
        exact ⟨rest, rfl, h⟩
      · rintro ⟨rest, h1, h⟩
        simp only [List.cons_append, List.cons.injEq] at h1
        obtain ⟨rfl, rfl⟩ := h1
        exact ⟨⟨rfl, visible_lit _⟩, rest, rfl, h⟩

theorem text_ordinary (dir : List (List UInt8)) (ho : ∀ c ∈ dir, ∀ b ∈ c, ordinary b) : ∀ b ∈ text dir, b ≠ 42 ∧ b ≠ 0 := by
  induction dir with
  | nil => simp [text]
  | cons c dir ih =>
    have hc : ∀ b ∈ c, b ≠ 42 ∧ b ≠ 0 := fun b hb => ⟨(ho c (by simp) b hb).1, (ho c (by simp) b hb).2.2.2.2.2⟩
    cases dir with
    | nil => simpa [text] using hc
    | cons e dir =>
      rw [text]
      · intro b hb
        simp only [List.mem_append, List.mem_cons] at hb
        rcases hb with hb | rfl | hb
        · exact hc b hb
        · decide
        · exact ih (fun c hc => ho c (by simp [hc])) b hb
      · simp

theorem replaced_below (pre by_ : List UInt8) (h : ∀ b ∈ pre, b ≠ 42) : Replaced [42, 42] by_ (pre ++ [42, 42]) (pre ++ by_) := by
  have := Replaced.step (search := [42, 42]) (replace := by_) pre [] [] (by
    intro pre' rest' he
    apply Nat.le_of_not_lt
    intro hlt
    have h1 : (pre ++ [42, 42] ++ [])[pre'.length]? = some 42 := by rw [he]; simp
    rw [List.append_assoc, List.getElem?_append_left hlt] at h1
    exact h 42 (List.mem_of_getElem? h1) rfl) (.done [] (by simp))
  simpa using this

end Glob

/-- **C152** `dir/**`, the directory being named by ordinary characters, in any tree: exactly the files one to six levels below the directory none of whose components
below it begins with a dot. -/
theorem C152_below (tree : List (List (List UInt8))) (dir : List (List UInt8)) (hne : dir ≠ []) (ho : ∀ c ∈ dir, ∀ b ∈ c, ordinary b)
    (hl : (text dir).length ≤ 2147483644) :
    ∃ set, Glob.globFileList (globIn tree) (text dir ++ [47, 42, 42]) = some ⟨set, 0, 0⟩ ∧ set.Nodup ∧ ∀ f, f ∈ set ↔
      ∃ rest, dir ++ rest ∈ tree ∧ 1 ≤ rest.length ∧ rest.length ≤ 6 ∧ (∀ c ∈ rest, c.head? ≠ some 46) ∧ f = text (dir ++ rest) := by
  have hto := Glob.text_ordinary dir ho
  have h0 : (0 : UInt8) ∉ text dir ++ [47, 42, 42] := by
    intro h
    simp only [List.mem_append, List.mem_cons, List.not_mem_nil, or_false] at h
    rcases h with h | h
    · exact (hto 0 h).2 rfl
    · revert h; decide
  obtain ⟨set, h1, h2, h3⟩ := C152_glob (globIn tree) _ h0 (by simp; omega)
  refine ⟨set, h1, h2, fun f => ?_⟩
  rw [h3 f]
  have hpat : text dir ++ [47, 42, 42] = (text dir ++ [47]) ++ [42, 42] := by simp
  have hin : [42, 42] <:+: text dir ++ [47, 42, 42] := ⟨text dir ++ [47], [], by simp⟩
  have hrep : ∀ d, Replaced [42, 42] (levels d) (text dir ++ [47, 42, 42]) (text dir ++ 47 :: levels d) := by
    intro d
    have := Glob.replaced_below (text dir ++ [47]) (levels d) (by
      intro b hb
      simp only [List.mem_append, List.mem_singleton] at hb
      rcases hb with hb | rfl
      · exact (hto b hb).1
      · decide)
    simpa using this
  have hglob : ∀ d l, globIn tree (text dir ++ 47 :: levels (d + 1)) = some l → ∀ f, f ∈ l ↔
      ∃ rest, dir ++ rest ∈ tree ∧ rest.length = d + 1 ∧ (∀ c ∈ rest, c.head? ≠ some 46) ∧ f = text (dir ++ rest) := by
    intro d l hg f
    have hl : l = (tree.filter (pathMatch (TokenSpec.pieces (· == 47) (text dir ++ 47 :: levels (d + 1))))).map text := by
      unfold globIn at hg
      split at hg
      · simp at hg
      · injection hg with hg; exact hg.symm
    rw [hl, Glob.pieces_dir dir hne ho, Glob.pieces_levels]
    simp only [List.mem_map, List.mem_filter, Glob.pathMatch_dir dir ho, Glob.pathMatch_stars]
    constructor
    · rintro ⟨p, ⟨a, rest, rfl, b, c⟩, rfl⟩
      exact ⟨rest, a, b, c, rfl⟩
    · rintro ⟨rest, a, b, c, rfl⟩
      exact ⟨_, ⟨a, rest, rfl, b, c⟩, rfl⟩
  have hsome : ∀ d rest, dir ++ rest ∈ tree → rest.length = d + 1 → (∀ c ∈ rest, c.head? ≠ some 46) →
      ∃ l, globIn tree (text dir ++ 47 :: levels (d + 1)) = some l := by
    intro d rest a b c
    unfold globIn
    have hm : dir ++ rest ∈ tree.filter (pathMatch (TokenSpec.pieces (· == 47) (text dir ++ 47 :: levels (d + 1)))) := by
      rw [List.mem_filter, Glob.pieces_dir dir hne ho, Glob.pieces_levels]
      exact ⟨a, (Glob.pathMatch_dir dir ho _ _).2 ⟨rest, rfl, (Glob.pathMatch_stars _ _).2 ⟨b, c⟩⟩⟩
    split
    · rename_i he
      rw [he] at hm
      simp at hm
    · exact ⟨_, rfl⟩
  simp only [hin, not_true_eq_false, false_and, false_or, true_and]
  constructor
  · rintro ⟨d, out, l, d1, d2, hr, hg, hf⟩
    rw [C38_replaced_unique _ _ _ _ _ (by simp) hr (hrep d)] at hg
    obtain ⟨k, rfl⟩ : ∃ k, d = k + 1 := ⟨d - 1, by omega⟩
    obtain ⟨rest, a, b, c, e⟩ := (hglob k l hg f).1 hf
    exact ⟨rest, a, by omega, by omega, c, e⟩
  · rintro ⟨rest, a, b1, b2, c, e⟩
    obtain ⟨k, hk⟩ : ∃ k, rest.length = k + 1 := ⟨rest.length - 1, by omega⟩
    obtain ⟨l, hg⟩ := hsome k rest a hk c
    exact ⟨k + 1, _, l, by omega, by omega, hrep _, hg, (hglob k l hg f).2 ⟨rest, a, hk, c, e⟩⟩

/-- A small tree: `/a/b`, `/a/b/c`, `/a/.h`, `/a/x/b/y/z`, and seven levels below `/a`. -/
def C152_tree : List (List (List UInt8)) :=
  [[[], [97], [98]], [[], [97], [98], [99]], [[], [97], [46, 104]], [[], [97], [120], [98], [121], [122]],
   [[], [97], [49], [50], [51], [52], [53], [54], [55]]]

example : (Glob.globFileList (globIn C152_tree) [47, 97, 47, 42, 42]).map (·.set) =
    some [[47, 97, 47, 98], [47, 97, 47, 98, 47, 99], [47, 97, 47, 120, 47, 98, 47, 121, 47, 122]] := by decide +kernel
example : text [[], [97]] ++ [47, 42, 42] = [47, 97, 47, 42, 42] := rfl

/-- **C152** (negation of "`**` is any number of directories"): seven levels are not reached, no directory at all is not either (`/a/**/b` does not find `/a/b`), and two `**` in one
pattern only match the same number of levels (`/a/**/b/**` does not find `/a/x/b/y/z`). -/
theorem C152_not_any_depth_negated :
    (Glob.globFileList (globIn C152_tree) [47, 42, 42]).map (fun s => s.set.contains [47, 97, 47, 49, 47, 50, 47, 51, 47, 52, 47, 53, 47, 54, 47, 55]) = some false ∧
    (Glob.globFileList (globIn C152_tree) [47, 97, 47, 42, 42, 47, 98]).map (·.set) = some [] ∧
    (Glob.globFileList (globIn C152_tree) [47, 97, 47, 42, 42, 47, 98, 47, 42, 42]).map (·.set) = some [] := by decide +kernel

/-! ## `ListDir` -/

namespace Glob

theorem listLoop_ok (dir : List UInt8) (ext : Option (List UInt8)) (hd : 0 ∉ dir) :
    ∀ (names acc : List (List UInt8)), (∀ n ∈ names, 0 ∉ n) →
      listLoop dir ext names acc = some (acc ++ (names.filter fun n => match ext with
        | none => true
        | some e => decide (e.map Path.toLower <:+ n.map Path.toLower)).map (PathSpec.joined dir 47)) := by
  intro names
  induction names with
  | nil => intro acc _; simp [listLoop]
  | cons n names ih =>
    intro acc h0
    have hn := h0 n (by simp)
    have hj : (0 : UInt8) ∉ PathSpec.joined dir 47 n := by
      unfold PathSpec.joined
      split
      · have : (0 : UInt8) ∉ dir.dropLast := fun h => hd (List.dropLast_subset dir h)
        simp [this, hn]
      · simp [hd, hn]
    have hs : CMem.str ((PathSpec.joined dir 47 n).map some ++ [some 0]) = some (PathSpec.joined dir 47 n) := CMem.str_holds ⟨hj, [], by simp⟩
    cases ext with
    | none =>
      simp only [listLoop, Option.bind_eq_bind, Option.bind_some, if_true, C48_joinAlloc dir n hd hn, hs]
      rw [ih _ (fun m hm => h0 m (by simp [hm]))]
      simp
    | some e =>
      simp only [listLoop, C65_endsWithCase, Option.bind_eq_bind, Option.bind_some]
      by_cases hk : e.map Path.toLower <:+ n.map Path.toLower
      · simp only [hk, decide_true, if_true, C48_joinAlloc dir n hd hn, Option.bind_some, hs]
        rw [ih _ (fun m hm => h0 m (by simp [hm]))]
        simp [hk]
      · simp only [hk, decide_false, Bool.false_eq_true, if_false]
        rw [ih _ (fun m hm => h0 m (by simp [hm]))]
        simp [hk]

end Glob

/-- **C152** `ListDir`: the names of the directory, in its order, that end with the extension up to ASCII case (all without one), each behind the directory's name and one slash; NULL exactly
when the directory cannot be opened. -/
theorem C152_listDir (entries : Option (List (List UInt8))) (dir : List UInt8) (ext : Option (List UInt8)) (hd : 0 ∉ dir)
    (h0 : ∀ l, entries = some l → ∀ n ∈ l, 0 ∉ n) :
    Glob.listDir entries dir ext = some (entries.map fun l => (l.filter fun n => match ext with
        | none => true
        | some e => decide (e.map Path.toLower <:+ n.map Path.toLower)).map (PathSpec.joined dir 47)) := by
  cases entries with
  | none => rfl
  | some l => simp [Glob.listDir, Glob.listLoop_ok dir ext hd l [] (h0 l rfl)]

example : Glob.listDir (some [[46], [46, 46], [97, 46, 67, 70], [98]]) [47, 116] (some [46, 99, 102]) = some (some [[47, 116, 47, 97, 46, 67, 70]]) := by decide +kernel

/-- **C152** (negation of "the contents of the directory"): without extension the directory itself and its parent are listed. -/
theorem C152_dots_listed_negated : Glob.listDir (some [[46], [46, 46], [98]]) [47, 116] none =
    some (some [[47, 116, 47, 46], [47, 116, 47, 46, 46], [47, 116, 47, 98]]) := by decide +kernel
