import Verif.Model.DelTree
import Verif.Spec.DelTree
import Verif.Props.SafeChown
/-! # Lemmas for C108 -/
namespace SafeOpen
open SafeOpenSpec

/-! ## A filesystem with fewer entries -/

/-- `fs1` is `fs2` with some directory entries missing. -/
def Fewer (fs1 fs2 : FS) : Prop :=
  fs1.root = fs2.root ∧ ∀ i, fs1.node i = fs2.node i ∨ ∃ e1 e2 u g, fs1.node i = some ⟨.dir e1, u, g⟩ ∧ fs2.node i = some ⟨.dir e2, u, g⟩ ∧ ∀ c j, e1.lookup c = some j → e2.lookup c = some j

theorem fewer_entry {fs1 fs2 : FS} (h : Fewer fs1 fs2) {d : Nat} {c : Name} {i : Nat} (he : entry fs1 d c = .ok i) : entry fs2 d c = .ok i := by
  rcases h.2 d with h1 | ⟨e1, e2, u, g, h1, h2, h3⟩
  · simp only [entry, ← h1]; exact he
  · simp only [entry, h1, h2] at he ⊢
    cases hl : e1.lookup c with
    | none => rw [hl] at he; cases he
    | some j => rw [hl] at he; cases he; rw [h3 c i hl]

theorem fewer_link {fs1 fs2 : FS} (h : Fewer fs1 fs2) (i : Nat) (t : List UInt8) : IsLink fs1 i t ↔ IsLink fs2 i t := by
  rcases h.2 i with h1 | ⟨e1, e2, u, g, h1, h2, h3⟩
  · simp only [IsLink, h1]
  · simp [IsLink, h1, h2]

theorem fewer_node {fs1 fs2 : FS} (h : Fewer fs1 fs2) {i : Nat} {n : Inode} (hn : fs1.node i = some n) : ∃ n', fs2.node i = some n' ∧ n'.uid = n.uid ∧ n'.gid = n.gid := by
  rcases h.2 i with h1 | ⟨e1, e2, u, g, h1, h2, h3⟩
  · exact ⟨n, by rw [← h1]; exact hn, rfl, rfl⟩
  · rw [h1] at hn; cases hn; exact ⟨_, h2, rfl, rfl⟩

theorem fewer_resolves {fs1 fs2 : FS} (h : Fewer fs1 fs2) {d : Nat} {cs : List Name} {m j : Nat} (hr : Resolves fs1 d cs m j) : Resolves fs2 d cs m j := by
  induction hr with
  | here d => exact .here d
  | name d c cs i n j h1 h2 _ ih => exact .name _ _ _ _ _ _ (fewer_entry h h1) (fun t => fun hl => h2 t ((fewer_link h i t).mpr hl)) ih
  | link d c cs i n j t h1 h2 _ ih =>
    rw [h.1] at ih
    exact .link _ _ _ _ _ _ _ (fewer_entry h h1) ((fewer_link h i t).mp h2) ih

theorem fewer_trusted {fs1 fs2 : FS} (h : Fewer fs1 fs2) {me d : Nat} {cs : List Name} {j : Nat} (hr : TrustedPath fs1 me d cs j) : TrustedPath fs2 me d cs j := by
  induction hr with
  | done d => exact .done d
  | step d c cs b i m j nb na h1 h2 h3 h4 h5 h6 _ ih =>
    obtain ⟨nb', b1, b2, b3⟩ := fewer_node h h2
    obtain ⟨na', a1, a2, a3⟩ := fewer_node h h5
    exact .step _ _ _ _ _ _ _ _ _ (fewer_entry h h1) b1 (fewer_resolves h h3) h4 a1 (by simp only [Trusted, b2, b3, a2, a3] at *; exact h6) ih

theorem trustedPath_snoc {fs : FS} {me d : Nat} {cs : List Name} {j : Nat} (h : TrustedPath fs me d cs j) :
    ∀ {c : Name} {k : Nat}, TrustedPath fs me j [c] k → TrustedPath fs me d (cs ++ [c]) k := by
  induction h with
  | done d => intro c k h; exact h
  | step d c cs b i m j nb na h1 h2 h3 h4 h5 h6 _ ih => intro c' k h; exact .step _ _ _ _ _ _ _ _ _ h1 h2 h3 h4 h5 h6 (ih h)

theorem lookup_filter {ent : List (Name × Nat)} (p : Name → Bool) (c : Name) : (ent.filter fun e => p e.1).lookup c = if p c then ent.lookup c else none := by
  induction ent with
  | nil => simp
  | cons e ent ih =>
    by_cases hp : p e.1 = true
    · rw [List.filter_cons, if_pos hp]
      obtain ⟨a, b⟩ := e
      by_cases hc : c = a
      · subst hc
        simp only at hp
        simp [hp]
      · have : (c == a) = false := by simpa using hc
        simp only [List.lookup_cons, this, ih]
    · rw [List.filter_cons, if_neg hp, ih]
      obtain ⟨a, b⟩ := e
      by_cases hc : c = a
      · subst hc
        simp only at hp
        simp [hp]
      · have : (c == a) = false := by simpa using hc
        simp only [List.lookup_cons, this]

theorem dots_lookup {ent : List (Name × Nat)} (c : Name) (j : Nat) (h : (ent.filter fun e => dotName e.1).lookup c = some j) : ent.lookup c = some j := by
  have := lookup_filter (ent := ent) (fun c => decide (dotName c)) c
  rw [this] at h
  split at h
  · exact h
  · cases h

theorem dots_dots (ent : List (Name × Nat)) : (ent.filter fun e => dotName e.1).filter (fun e => dotName e.1) = ent.filter fun e => dotName e.1 := by
  simp [List.filter_filter]

theorem emptied_nil (fs : FS) : emptied fs [] = fs := by
  simp [emptied]

theorem emptied_fewer (fs : FS) {a b : List Nat} (h : ∀ i ∈ b, i ∈ a) : Fewer (emptied fs a) (emptied fs b) := by
  refine ⟨rfl, fun i => ?_⟩
  simp only [emptied]
  by_cases hb : i ∈ b
  · left; simp only [hb, h i hb, if_true]
  · by_cases ha : i ∈ a
    · simp only [hb, ha, if_true, if_false]
      split
      · rename_i ent u g hn
        exact .inr ⟨_, _, u, g, rfl, hn, fun c j => dots_lookup c j⟩
      · exact .inl rfl
    · left; simp only [ha, hb, if_false]

/-! ## What does not change elsewhere -/

def IsDir (fs : FS) (i : Nat) : Prop := ∃ ent u g, fs.node i = some ⟨.dir ent, u, g⟩

theorem treeDirs_isDir (fs : FS) : ∀ k i, ∀ j ∈ treeDirs fs k i, IsDir fs j := by
  intro k
  induction k with
  | zero => intro i j h; simp [treeDirs] at h
  | succ k ih =>
    intro i j h
    simp only [treeDirs] at h
    split at h
    · rename_i ent u g hn
      simp only [List.mem_cons, List.mem_flatMap] at h
      rcases h with rfl | ⟨e, _, h⟩
      · exact ⟨ent, u, g, hn⟩
      · exact ih e.2 j h
    · cases h

theorem tree_congr (fs fs' : FS) (S : List Nat) (hS : ∀ i ∈ S, IsDir fs i) (hag : ∀ i, i ∉ S → fs'.node i = fs.node i) :
    ∀ k len i, Fits fs k len i → (∀ j ∈ treeDirs fs k i, j ∉ S) → Fits fs' k len i ∧ treeDirs fs' k i = treeDirs fs k i := by
  intro k
  induction k with
  | zero =>
    intro len i hf _
    refine ⟨?_, rfl⟩
    obtain ⟨n, h1, h2⟩ := hf
    have : i ∉ S := by
      intro hi
      obtain ⟨ent, u, g, h⟩ := hS i hi
      rw [h1] at h; cases h
      exact h2 ent rfl
    exact ⟨n, by rw [hag i this]; exact h1, h2⟩
  | succ k ih =>
    intro len i hf hd
    obtain ⟨n, h1, h2⟩ := hf
    have hi : i ∉ S := by
      intro hi
      obtain ⟨ent, u, g, h⟩ := hS i hi
      exact hd i (by simp [treeDirs, h]) hi
    have hn' : fs'.node i = some n := by rw [hag i hi]; exact h1
    obtain ⟨kd, u, g⟩ := n
    cases kd with
    | reg data => exact ⟨⟨_, hn', by simp⟩, by simp [treeDirs, h1, hn']⟩
    | link t => exact ⟨⟨_, hn', by simp⟩, by simp [treeDirs, h1, hn']⟩
    | dir ent =>
      obtain ⟨h3, h4⟩ := h2 ent rfl
      have hsub : ∀ e ∈ ent, ¬ dotName e.1 → ∀ j ∈ treeDirs fs k e.2, j ∉ S := by
        intro e he hdn j hj
        refine hd j ?_
        simp only [treeDirs, h1, List.mem_cons, List.mem_flatMap, List.mem_filter]
        exact .inr ⟨e, ⟨he, by simpa using hdn⟩, hj⟩
      refine ⟨⟨_, hn', ?_⟩, ?_⟩
      · intro ent' he'
        cases he'
        refine ⟨h3, fun e he hdn => ?_⟩
        obtain ⟨a, b, c, d⟩ := h4 e he hdn
        exact ⟨a, b, c, (ih _ _ d (hsub e he hdn)).1⟩
      · simp only [treeDirs, h1, hn']
        congr 1
        have key : ∀ l : List (Name × Nat), (∀ e ∈ l, e ∈ ent ∧ ¬ dotName e.1) → l.flatMap (fun e => treeDirs fs' k e.2) = l.flatMap (fun e => treeDirs fs k e.2) := by
          intro l
          induction l with
          | nil => intro _; rfl
          | cons e l ihl =>
            intro hl
            simp only [List.flatMap_cons]
            obtain ⟨he, hdn⟩ := hl e (by simp)
            obtain ⟨a, b, c, d⟩ := h4 e he hdn
            rw [(ih _ _ d (hsub e he hdn)).2, ihl (fun e he => hl e (by simp [he]))]
        exact key _ (fun e he => by simpa using List.mem_filter.mp he)

/-! ## Paths -/

theorem comps_eq_pieces {path : List UInt8} (h : path.getLast? ≠ some 47) : comps path = pieces [] path := by simp [comps, h]

theorem getLast_ne (name : Name) (h : (47 : UInt8) ∉ name) : name.getLast? ≠ some 47 := fun hl => h (List.mem_of_getLast? hl)

theorem sub_last {path : List UInt8} {name : Name} (hne : name ≠ []) (h : (47 : UInt8) ∉ name) : (path ++ 47 :: name).getLast? ≠ some 47 := by
  cases name with
  | nil => exact absurd rfl hne
  | cons a t =>
    have : (path ++ 47 :: a :: t).getLast? = (a :: t).getLast? := by
      rw [List.getLast?_append]
      simp only [List.getLast?_cons_cons, List.getLast?_cons, Option.some_or, Option.getD_some]
    rw [this]; exact getLast_ne _ h

theorem sub_comps {path : List UInt8} {name : Name} (hp : path.getLast? ≠ some 47) (hne : name ≠ []) (h : (47 : UInt8) ∉ name) : comps (path ++ 47 :: name) = comps path ++ [name] := by
  rw [comps_eq_pieces (sub_last hne h), comps_eq_pieces hp]
  exact pieces_dir_name name h hne path []

theorem sub_head {path : List UInt8} (hp : path ≠ []) (s : List UInt8) : (path ++ s).head? = path.head? := by
  cases path with
  | nil => exact absurd rfl hp
  | cons a t => rfl

theorem resolve_of {fs : FS} {s : Nat} {cs : List Name} {m d : Nat} (hr : Resolves fs s cs m d) (hm : m ≤ 40) : resolve fs maxLinks s cs = .ok d :=
  (resolve_ok fs maxLinks s cs d).mpr ⟨m, hm, hr⟩

theorem kLast_of {fs : FS} {s : Nat} {cs : List Name} {m d i : Nat} {c : Name} (hr : Resolves fs s cs m d) (hm : m ≤ 40) (he : entry fs d c = .ok i) : kLast fs s (cs ++ [c]) = .ok (d, c, i) := by
  simp [kLast, resolve_of hr hm, he]

theorem pathStart_of (E : Env) (fs : FS) {path : List UInt8} (hp : path ≠ []) (hl : path.length < 4096) : pathStart E fs path = .ok (start E fs path) := by
  have h : ¬ path.length ≥ 4096 := by omega
  simp only [pathStart, hp, if_false, PATH_MAX, start, h]

theorem isDot_iff (c : Name) : isDot c = true ↔ dotName c := by simp [isDot, dotName]

/-! ## DirOpen -/

theorem dirOpen_quiet (E : Env) (hQ : Quiet E) (he : E.euid ≤ 1) (w : World) (hg : Good w) (path : List UInt8) (hp : path ≠ []) (hl : path.getLast? ≠ some 47) (hlen : path.length < 4096)
    (hroot : NotLink w.fs w.fs.root) (d : Nat) (hT : TrustedPath w.fs E.euid (start E w.fs path) (comps path) d) (m : Nat) (hm : m ≤ 40) (hr : Resolves w.fs (start E w.fs path) (comps path) m d)
    (hd : IsDir w.fs d) (free : Nat) (hf : free ≠ 0) :
    ∃ fd w', dirOpen E free w path = some (.ok fd, w') ∧ w'.fds = plus w.fds fd d ∧ w'.fs = w.fs ∧ w.fds fd = none ∧ Good w' := by
  obtain ⟨ent, u, g, hn⟩ := hd
  obtain ⟨sfd, w1, e1, hf1, hfs1, hn1, g1⟩ := safeOpen_dir_quiet E hQ he w hg path (.inr ⟨hp, hl⟩) hroot d hT _ hn (by simp [Openable])
  have hs1 : w1.fds sfd = some d := by rw [hf1]; simp [plus]
  let w2 := (addFd (after w1 w1.fs w1.fs) d).2
  have e2 : opendir E w1 path = some (.ok w1.next, w2) := by
    have h := call_quiet E hQ w1 (fun fs => some (kOpendir E path fs, fs)) (.ok d) w1.fs (by
      simp only [hfs1]
      simp only [kOpendir, pathStart_of E w.fs hp hlen, resolve_of hr hm, hn])
    simp only [opendir, h, Option.bind_eq_bind, Option.bind_some]
    rfl
  have hne : sfd ≠ w1.next := by
    intro h
    have := g1 sfd (by omega)
    rw [hs1] at this; cases this
  have hn2 : w1.fds w1.next = none := g1 _ (Nat.le_refl _)
  have hf2 : w2.fds = plus w1.fds w1.next d := rfl
  have hs2 : w2.fds sfd = some d := by rw [hf2]; simp only [plus, hne, if_false]; exact hs1
  have hd2 : w2.fds w1.next = some d := by rw [hf2]; simp [plus]
  have hfs2 : w2.fs = w.fs := hfs1
  have g2 : Good w2 := by
    intro f hf
    have hf' : w1.next + 1 ≤ f := hf
    rw [hf2]
    simp only [plus]
    rw [if_neg (by omega)]
    exact g1 f (by omega)
  have e3 : fstat E w2 sfd = some (.ok (statOf ⟨.dir ent, u, g⟩), after w2 w2.fs w2.fs) := by
    rw [fstat_quiet E hQ w2 sfd d hs2]
    simp [statNode, hfs2, hn]
  let w3 := after w2 w2.fs w2.fs
  have e4 : fstat E w3 w1.next = some (.ok (statOf ⟨.dir ent, u, g⟩), after w3 w3.fs w3.fs) := by
    rw [fstat_quiet E hQ w3 w1.next d hd2]
    have : w3.fs = w.fs := hfs2
    simp [statNode, this, hn]
  let w4 := after w3 w3.fs w3.fs
  have e5 : close w4 sfd = some { w4 with fds := without w2.fds sfd } := close_spec _ _ d hs2
  have hcmp : ¬ (w4.fds sfd ≠ w4.fds w1.next) := by
    show ¬ (w2.fds sfd ≠ w2.fds w1.next)
    rw [hs2, hd2]; simp
  refine ⟨w1.next, { w4 with fds := without w2.fds sfd }, ?_, ?_, hfs2, ?_, ?_⟩
  · simp only [dirOpen, e1, e2, Option.bind_eq_bind, Option.bind_some, hf, if_false]
    rw [show fstat E w2 sfd = _ from e3]
    simp only [Option.bind_some]
    rw [show fstat E (after w2 w2.fs w2.fs) w1.next = _ from e4]
    simp only [Option.bind_some]
    rw [if_neg hcmp, show close (after w3 w3.fs w3.fs) sfd = _ from e5]
    rfl
  · show without w2.fds sfd = _
    rw [hf2, hf1, without_plus2 hn1 hne]
  · rw [hf1] at hn2
    simp only [plus, Ne.symm hne, if_false] at hn2
    exact hn2
  · intro f hf
    show without w2.fds sfd f = none
    simp only [without]
    split
    · rfl
    · exact g2 f hf

/-! ## The loop and the recursion -/

theorem dots_lookup_none {ds : List (Name × Nat)} (h : ∀ e ∈ ds, dotName e.1) {c : Name} (hc : ¬ dotName c) : ds.lookup c = none := by
  induction ds with
  | nil => rfl
  | cons e ds ih =>
    obtain ⟨a, b⟩ := e
    have hne : c ≠ a := by rintro rfl; exact hc (h (c, b) (by simp))
    have : (c == a) = false := by simpa using hne
    simp only [List.lookup_cons, this]
    exact ih (fun e he => h e (by simp [he]))

theorem lookup_append_none {ds es : List (Name × Nat)} {c : Name} (h : ds.lookup c = none) : (ds ++ es).lookup c = es.lookup c := by
  induction ds with
  | nil => rfl
  | cons e ds ih =>
    obtain ⟨a, b⟩ := e
    simp only [List.lookup_cons] at h
    simp only [List.cons_append, List.lookup_cons]
    split
    · rename_i hh; rw [hh] at h; cases h
    · rename_i hh; rw [hh] at h; exact ih h

theorem filter_out {ds es : List (Name × Nat)} {c : Name} {i : Nat} (hd : ∀ e ∈ ds, dotName e.1) (hc : ¬ dotName c)
    (hn : (((c, i) :: es).filter fun e => ¬ dotName e.1).map (·.1) |>.Nodup) : (ds ++ (c, i) :: es).filter (fun e => e.1 ≠ c) = ds ++ es := by
  rw [List.filter_append]
  congr 1
  · rw [List.filter_eq_self]
    intro e he
    have : e.1 ≠ c := by rintro rfl; exact hc (hd e he)
    simpa using this
  · rw [List.filter_cons, if_neg (by simp), List.filter_eq_self]
    intro e he
    have : e.1 ≠ c := by
      rintro rfl
      rw [List.filter_cons, if_pos (by simpa using hc), List.map_cons, List.nodup_cons] at hn
      exact hn.1 (List.mem_map.mpr ⟨e, List.mem_filter.mpr ⟨he, by simpa using hc⟩, rfl⟩)
    simpa using this

/-- The directories below the entries. -/
def subDirs (fs : FS) (k : Nat) (es : List (Name × Nat)) : List Nat := (es.filter fun e => ¬ dotName e.1).flatMap fun e => treeDirs fs k e.2

theorem subDirs_dot (fs : FS) (k : Nat) (e : Name × Nat) (es : List (Name × Nat)) (h : dotName e.1) : subDirs fs k (e :: es) = subDirs fs k es := by simp [subDirs, h]
theorem subDirs_cons (fs : FS) (k : Nat) (e : Name × Nat) (es : List (Name × Nat)) (h : ¬ dotName e.1) : subDirs fs k (e :: es) = treeDirs fs k e.2 ++ subDirs fs k es := by simp [subDirs, h]

theorem subDirs_congr (fs fs' : FS) (S : List Nat) (hS : ∀ i ∈ S, IsDir fs i) (hag : ∀ i, i ∉ S → fs'.node i = fs.node i) (k len : Nat) (es : List (Name × Nat))
    (hf : ∀ e ∈ es, ¬ dotName e.1 → Fits fs k (len + 1 + e.1.length) e.2) (hd : ∀ j ∈ subDirs fs k es, j ∉ S) :
    (∀ e ∈ es, ¬ dotName e.1 → Fits fs' k (len + 1 + e.1.length) e.2) ∧ subDirs fs' k es = subDirs fs k es := by
  induction es with
  | nil => exact ⟨by simp, rfl⟩
  | cons e es ih =>
    by_cases hdot : dotName e.1
    · rw [subDirs_dot _ _ _ _ hdot] at hd ⊢
      rw [subDirs_dot _ _ _ _ hdot]
      obtain ⟨h1, h2⟩ := ih (fun e he => hf e (by simp [he])) hd
      refine ⟨fun e' he' hn => ?_, h2⟩
      rcases List.mem_cons.mp he' with rfl | he'
      · exact absurd hdot hn
      · exact h1 e' he' hn
    · rw [subDirs_cons _ _ _ _ hdot] at hd ⊢
      rw [subDirs_cons _ _ _ _ hdot]
      obtain ⟨h1, h2⟩ := ih (fun e he => hf e (by simp [he])) (fun j hj => hd j (by simp [hj]))
      obtain ⟨h3, h4⟩ := tree_congr fs fs' S hS hag k _ _ (hf e (by simp) hdot) (fun j hj => hd j (by simp [hj]))
      refine ⟨fun e' he' hn => ?_, by rw [h2, h4]⟩
      rcases List.mem_cons.mp he' with rfl | he'
      · exact h3
      · exact h1 e' he' hn

/-- What the recursion does, for trees of at most `k` levels. -/
def DelOK (E : Env) (k : Nat) : Prop :=
  ∀ (w : World) (path : List UInt8) (d m : Nat), Good w → path ≠ [] → path.getLast? ≠ some 47 → path.length < 4096 → NotLink w.fs w.fs.root → IsDir w.fs d →
    Fits w.fs k path.length d → (treeDirs w.fs k d).Nodup →
    TrustedPath (emptied w.fs (treeDirs w.fs k d)) E.euid (start E w.fs path) (comps path) d → m ≤ 40 → Resolves (emptied w.fs (treeDirs w.fs k d)) (start E w.fs path) (comps path) m d →
    ∀ free, k ≤ free → ∃ w', delTree E free w path = some (true, w') ∧ w'.fs = emptied w.fs (treeDirs w.fs k d) ∧ w'.fds = w.fds ∧ Good w'

theorem unlinked_node {fs : FS} {d : Nat} {c : Name} {ent : List (Name × Nat)} {u g : Nat} (h : fs.node d = some ⟨.dir ent, u, g⟩) (j : Nat) :
    (unlinked fs d c).node j = if j = d then some ⟨.dir (ent.filter fun e => e.1 ≠ c), u, g⟩ else fs.node j := by
  simp only [unlinked, h, setNode]

theorem unlinked_root (fs : FS) (d : Nat) (c : Name) : (unlinked fs d c).root = fs.root ∧ (unlinked fs d c).fresh = fs.fresh := by
  unfold unlinked
  split <;> exact ⟨rfl, rfl⟩

theorem fs_ext {a b : FS} (h1 : ∀ i, a.node i = b.node i) (h2 : a.root = b.root) (h3 : a.fresh = b.fresh) : a = b := by
  obtain ⟨n1, r1, f1⟩ := a
  obtain ⟨n2, r2, f2⟩ := b
  simp only at h1 h2 h3
  obtain rfl : n1 = n2 := funext h1
  subst h2 h3
  rfl

/-- Removing the entry after emptying what it leads to, and then emptying the rest. -/
theorem emptied_step {fs : FS} {d : Nat} {ds es : List (Name × Nat)} {c : Name} {i u g : Nat} {A B : List Nat} (hn : fs.node d = some ⟨.dir (ds ++ (c, i) :: es), u, g⟩)
    (hc : ¬ dotName c) (hd : d ∉ A) (hf : (ds ++ (c, i) :: es).filter (fun e => e.1 ≠ c) = ds ++ es) :
    emptied (unlinked (emptied fs A) d c) (d :: B) = emptied fs (d :: (A ++ B)) := by
  have hnA : (emptied fs A).node d = some ⟨.dir (ds ++ (c, i) :: es), u, g⟩ := by simp only [emptied, hd, if_false]; exact hn
  refine fs_ext (fun j => ?_) ?_ ?_
  · by_cases hj : j = d
    · subst hj
      simp only [emptied, List.mem_cons, true_or, if_true]
      have h1 := unlinked_node (c := c) hnA j
      simp only [if_true] at h1
      rw [hf] at h1
      simp only [emptied] at h1
      simp only [h1, hn]
      rw [List.filter_append, List.filter_append, List.filter_cons, if_neg (by simpa using hc)]
    · have h1 := unlinked_node (c := c) hnA j
      simp only [hj, if_false] at h1
      rw [show (emptied (unlinked (emptied fs A) d c) (d :: B)).node j = if j ∈ d :: B then
        (match (unlinked (emptied fs A) d c).node j with
        | some ⟨.dir ent, u, g⟩ => some ⟨.dir (ent.filter fun e => dotName e.1), u, g⟩
        | n => n) else (unlinked (emptied fs A) d c).node j from rfl, h1]
      simp only [emptied, List.mem_cons, hj, false_or, List.mem_append]
      by_cases hA : j ∈ A <;> by_cases hB : j ∈ B <;> simp only [hA, hB, if_true, if_false, true_or, or_true, or_false]
      all_goals
        cases hx : fs.node j with
        | none => rfl
        | some n =>
          obtain ⟨kd, u, g⟩ := n
          cases kd <;> simp
  · show (unlinked (emptied fs A) d c).root = fs.root
    rw [(unlinked_root _ _ _).1]; rfl
  · show (unlinked (emptied fs A) d c).fresh = fs.fresh
    rw [(unlinked_root _ _ _).2]; rfl

theorem delLoop_quiet (E : Env) (hQ : Quiet E) (k : Nat) (ih : DelOK E k) (path : List UInt8) (hp : path ≠ []) (hl : path.getLast? ≠ some 47) (d u g m : Nat) (hm : m ≤ 40) (free : Nat)
    (hfree : k ≤ free) : ∀ (es ds : List (Name × Nat)) (w : World), Good w → NotLink w.fs w.fs.root → w.fs.node d = some ⟨.dir (ds ++ es), u, g⟩ → (∀ e ∈ ds, dotName e.1) →
      ((es.filter fun e => ¬ dotName e.1).map (·.1)).Nodup →
      (∀ e ∈ es, ¬ dotName e.1 → e.1 ≠ [] ∧ (47 : UInt8) ∉ e.1 ∧ path.length + 1 + e.1.length < 4096 ∧ Fits w.fs k (path.length + 1 + e.1.length) e.2) →
      (d :: subDirs w.fs k es).Nodup →
      TrustedPath (emptied w.fs (d :: subDirs w.fs k es)) E.euid (start E w.fs path) (comps path) d → Resolves (emptied w.fs (d :: subDirs w.fs k es)) (start E w.fs path) (comps path) m d →
      ∀ failed, ∃ w', delLoop E (delTree E free) path (es.map (·.1)) w failed = some (failed, w') ∧ w'.fs = emptied w.fs (d :: subDirs w.fs k es) ∧ w'.fds = w.fds ∧ Good w' := by
  intro es
  induction es with
  | nil =>
    intro ds w hg hroot hn hds _ _ _ _ _ failed
    refine ⟨w, rfl, ?_, rfl, hg⟩
    refine fs_ext (fun j => ?_) rfl rfl
    simp only [emptied, subDirs, List.filter_nil, List.flatMap_nil, List.mem_singleton]
    split
    · rename_i hj
      subst hj
      rw [hn]
      simp only [List.append_nil]
      rw [List.filter_eq_self.mpr (by intro e he; simpa using hds e he)]
    · rfl
  | cons e es ihl =>
    intro ds w hg hroot hn hds hnd hval hnodup hT hR failed
    obtain ⟨c, i⟩ := e
    by_cases hdot : dotName c
    · have hdd : isDot c = true := (isDot_iff c).mpr hdot
      rw [subDirs_dot _ _ _ _ hdot] at hnodup hT hR ⊢
      obtain ⟨w', e1, h1⟩ := ihl (ds ++ [(c, i)]) w hg hroot (by rw [hn]; simp) (by
        intro e he
        rcases List.mem_append.mp he with h | h
        · exact hds e h
        · simp only [List.mem_singleton] at h; rw [h]; exact hdot) (by simpa [hdot] using hnd) (fun e he => hval e (by simp [he])) hnodup hT hR failed
      refine ⟨w', ?_, h1⟩
      simp only [List.map_cons, delLoop, hdd, if_true]
      exact e1
    · have hdd : isDot c = false := by
        cases hb : isDot c with
        | false => rfl
        | true => exact absurd ((isDot_iff c).mp hb) hdot
      rw [subDirs_cons _ _ _ _ hdot] at hnodup hT hR ⊢
      obtain ⟨hne, h47, hlen, hfit⟩ := hval (c, i) (by simp) hdot
      simp only at hne h47 hlen hfit
      have hsub : subpath path c = path ++ 47 :: c := by
        simp only [subpath, PATH_MAX]
        exact List.take_of_length_le (by simp; omega)
      have hsne : path ++ 47 :: c ≠ [] := by simp
      have hslen : (path ++ 47 :: c).length < 4096 := by simp; omega
      have hscomps := sub_comps (path := path) hl hne h47
      have hsl := sub_last (path := path) hne h47
      have hstart : ∀ fs, start E fs (path ++ 47 :: c) = start E fs path := by intro fs; simp only [start, sub_head hp]
      have hdA : d ∉ treeDirs w.fs k i := by
        rw [List.nodup_cons] at hnodup
        exact fun h => hnodup.1 (by simp [h])
      have hdB : d ∉ subDirs w.fs k es := by
        rw [List.nodup_cons] at hnodup
        exact fun h => hnodup.1 (by simp [h])
      have hAB : ∀ j ∈ subDirs w.fs k es, j ∉ treeDirs w.fs k i := by
        rw [List.nodup_cons] at hnodup
        intro j hj hj'
        exact (List.nodup_append.mp hnodup.2).2.2 j hj' j hj rfl
      have hndA : (treeDirs w.fs k i).Nodup := by
        rw [List.nodup_cons] at hnodup
        exact (List.nodup_append.mp hnodup.2).1
      have hndB : (d :: subDirs w.fs k es).Nodup := by
        rw [List.nodup_cons] at hnodup ⊢
        exact ⟨hdB, (List.nodup_append.mp hnodup.2).2.1⟩
      have hfewA : Fewer (emptied w.fs (d :: (treeDirs w.fs k i ++ subDirs w.fs k es))) (emptied w.fs (treeDirs w.fs k i)) := emptied_fewer _ (by intro j hj; simp [hj])
      have hfew0 : Fewer (emptied w.fs (d :: (treeDirs w.fs k i ++ subDirs w.fs k es))) w.fs := by
        have := emptied_fewer w.fs (a := d :: (treeDirs w.fs k i ++ subDirs w.fs k es)) (b := []) (by simp)
        rw [emptied_nil] at this; exact this
      have hlook : (ds ++ (c, i) :: es).lookup c = some i := by
        rw [lookup_append_none (dots_lookup_none hds hdot)]
        simp [List.lookup_cons]
      have hent : entry w.fs d c = .ok i := by simp only [entry, hn, hlook]
      have hR0 := fewer_resolves hfew0 hR
      have hfo := filter_out (ds := ds) hds hdot hnd
      have hS : ∀ S : List Nat, (∀ j ∈ S, j = d ∨ j ∈ treeDirs w.fs k i) → ∀ j ∈ S, IsDir w.fs j := by
        intro S h j hj
        rcases h j hj with rfl | h
        · exact ⟨_, _, _, hn⟩
        · exact treeDirs_isDir _ _ _ _ h
      -- the rest of the loop, once the entry is gone and what it led to is empty
      have rest : ∀ w3 : World, w3.fs = unlinked (emptied w.fs (treeDirs w.fs k i)) d c → w3.fds = w.fds → Good w3 →
          ∃ w', delLoop E (delTree E free) path (es.map (·.1)) w3 failed = some (failed, w') ∧ w'.fs = emptied w.fs (d :: (treeDirs w.fs k i ++ subDirs w.fs k es)) ∧ w'.fds = w.fds ∧ Good w' := by
        intro w3 hfs3 hfds3 hg3
        have hnA : (emptied w.fs (treeDirs w.fs k i)).node d = some ⟨.dir (ds ++ (c, i) :: es), u, g⟩ := by simp only [emptied, hdA, if_false]; exact hn
        have hnode := unlinked_node (c := c) hnA
        rw [← hfs3] at hnode
        have hn3 : w3.fs.node d = some ⟨.dir (ds ++ es), u, g⟩ := by
          have := hnode d
          simp only [if_true] at this
          rw [hfo] at this; exact this
        have hroot3 : w3.fs.root = w.fs.root := by rw [hfs3, (unlinked_root _ _ _).1]; rfl
        have hag : ∀ j, j ∉ d :: treeDirs w.fs k i → w3.fs.node j = w.fs.node j := by
          intro j hj
          simp only [List.mem_cons, not_or] at hj
          rw [hnode j, if_neg hj.1]
          simp only [emptied, hj.2, if_false]
        have hcong := subDirs_congr w.fs w3.fs (d :: treeDirs w.fs k i) (hS _ (by simp)) hag k path.length es (fun e he hdn => (hval e (by simp [he]) hdn).2.2.2) (by
          intro j hj
          simp only [List.mem_cons, not_or]
          exact ⟨by rintro rfl; exact hdB hj, hAB j hj⟩)
        have hemp : emptied w3.fs (d :: subDirs w3.fs k es) = emptied w.fs (d :: (treeDirs w.fs k i ++ subDirs w.fs k es)) := by
          rw [hcong.2, hfs3]
          exact emptied_step hn hdot hdA hfo
        have hst3 : start E w3.fs path = start E w.fs path := by simp only [start, hroot3]
        have hnl : NotLink w3.fs w3.fs.root := by
          rw [hroot3]
          rintro t ⟨a, b, hlk⟩
          by_cases hr : w.fs.root ∈ d :: treeDirs w.fs k i
          · obtain ⟨ent', u', g', hx⟩ := hS _ (by simp) _ hr
            rw [hnode] at hlk
            split at hlk
            · cases hlk
            · simp only [emptied] at hlk
              split at hlk
              · rw [hx] at hlk; cases hlk
              · rw [hx] at hlk; cases hlk
          · rw [hag _ hr] at hlk
            exact hroot t ⟨a, b, hlk⟩
        obtain ⟨w', a1, a2, a3, a4⟩ := ihl ds w3 hg3 hnl hn3 hds (by
            rw [List.filter_cons, if_pos (by simpa using hdot), List.map_cons, List.nodup_cons] at hnd
            exact hnd.2) (by
            intro e he hdn
            obtain ⟨b1, b2, b3, _⟩ := hval e (by simp [he]) hdn
            exact ⟨b1, b2, b3, hcong.1 e he hdn⟩) (by rw [hcong.2]; exact hndB) (by rw [hemp, hst3]; exact hT) (by rw [hemp, hst3]; exact hR) failed
        exact ⟨w', a1, by rw [a2, hemp], by rw [a3, hfds3], a4⟩
      obtain ⟨n, hni⟩ : ∃ n, w.fs.node i = some n := by
        cases k with
        | zero => obtain ⟨n, h, _⟩ := hfit; exact ⟨n, h⟩
        | succ k => obtain ⟨n, h, _⟩ := hfit; exact ⟨n, h⟩
      have hlast0 : kLast w.fs (start E w.fs path) (comps (path ++ 47 :: c)) = .ok (d, c, i) := by rw [hscomps]; exact kLast_of hR0 hm hent
      have hlst : ∀ b, (b = true ↔ IsDir w.fs i) → lstat E w (subpath path c) = some (.ok b, after w w.fs w.fs) := by
        intro b hb
        refine call_quiet E hQ w _ _ _ ?_
        rw [hsub]
        simp only [kLstat, pathStart_of E w.fs hsne hslen, hstart, hlast0, hni]
        rw [if_neg (by rw [hscomps]; simp)]
        obtain ⟨kd, u', g'⟩ := n
        cases kd with
        | dir ent => simp [hb.mpr ⟨_, _, _, hni⟩]
        | reg data =>
          have : b = false := by
            cases b with
            | false => rfl
            | true => obtain ⟨_, _, _, h⟩ := hb.mp rfl; rw [hni] at h; cases h
          simp [this]
        | link data =>
          have : b = false := by
            cases b with
            | false => rfl
            | true => obtain ⟨_, _, _, h⟩ := hb.mp rfl; rw [hni] at h; cases h
          simp [this]
      by_cases hisd : IsDir w.fs i
      · -- a directory
        have e1 := hlst true (by simp [hisd])
        let w1 := after w w.fs w.fs
        have hstep : TrustedPath (emptied w.fs (treeDirs w.fs k i)) E.euid d [c] i := by
          have hx : ∃ n', (emptied w.fs (treeDirs w.fs k i)).node i = some n' ∧ ∀ t, n'.kind ≠ .link t := by
            obtain ⟨ent', u', g', hx⟩ := hisd
            simp only [emptied]
            split
            · rw [hx]; exact ⟨_, rfl, by simp⟩
            · rw [hx]; exact ⟨_, rfl, by simp⟩
          obtain ⟨n', hn', hk'⟩ := hx
          have hnl : ∀ t, ¬ IsLink (emptied w.fs (treeDirs w.fs k i)) i t := by
            rintro t ⟨a, b, h⟩
            rw [hn'] at h; cases h
            exact hk' t rfl
          have hent' : entry (emptied w.fs (treeDirs w.fs k i)) d c = .ok i := by
            simp only [entry, emptied, hdA, if_false, hn, hlook]
          exact .step d c [] i i 0 i n' n' hent' hn' (.name _ _ _ _ _ _ hent' hnl (.here _)) (by omega) hn' (.inr (.inr ⟨rfl, rfl⟩)) (.done _)
        have hRi : Resolves (emptied w.fs (treeDirs w.fs k i)) (start E w.fs path) (comps path ++ [c]) m i := by
          cases hstep with
          | step _ _ _ b i' m' j nb na h1 h2 h3 h4 h5 h6 h7 =>
            cases h7
            cases h3 with
            | name _ _ _ i2 _ _ q1 q2 q3 => cases q3; exact resolves_append (fewer_resolves hfewA hR) (.name _ _ _ _ _ _ q1 q2 (.here _))
            | link _ _ _ i2 n2 _ t q1 q2 q3 =>
              exfalso
              have : entry (emptied w.fs (treeDirs w.fs k i)) d c = .ok i := by simp only [entry, emptied, hdA, if_false, hn, hlook]
              rw [this] at q1; cases q1
              obtain ⟨a, b, h⟩ := q2
              obtain ⟨ent', u', g', hx⟩ := hisd
              simp only [emptied] at h
              split at h <;> · rw [hx] at h; cases h
        obtain ⟨w2, d1, d2, d3, d4⟩ := ih w1 (path ++ 47 :: c) i m hg hsne hsl hslen hroot hisd (by
            show Fits w.fs k _ i
            have : (path ++ 47 :: c).length = path.length + 1 + c.length := by simp; omega
            rw [this]; exact hfit) hndA (by
            rw [hscomps, hstart]
            exact trustedPath_snoc (fewer_trusted hfewA hT) hstep) hm (by rw [hscomps, hstart]; exact hRi) free hfree
        have hfs2 : w2.fs = emptied w.fs (treeDirs w.fs k i) := d2
        have hent2 : entry w2.fs d c = .ok i := by rw [hfs2]; simp only [entry, emptied, hdA, if_false, hn, hlook]
        have e3 : rmdir E w2 (subpath path c) = some (.ok (), after w2 w2.fs (unlinked w2.fs d c)) := by
          refine call_quiet E hQ w2 _ _ _ ?_
          rw [hsub]
          have hst2 : start E w2.fs path = start E w.fs path := by rw [hfs2]; rfl
          have hlast2 : kLast w2.fs (start E w2.fs path) (pieces [] (path ++ 47 :: c)) = .ok (d, c, i) := by
            rw [← comps_eq_pieces hsl, hscomps, hst2]
            refine kLast_of (m := m) ?_ hm hent2
            rw [hfs2]; exact fewer_resolves hfewA hR
          have hi2 : ∃ ent' u' g', w2.fs.node i = some ⟨.dir ent', u', g'⟩ ∧ ent'.all (fun e => isDot e.1) = true := by
            obtain ⟨ent', u', g', hx⟩ := hisd
            have hmem : i ∈ treeDirs w.fs k i := by
              cases k with
              | zero => obtain ⟨n', h1, h2⟩ := hfit; rw [hx] at h1; cases h1; exact absurd rfl (h2 ent')
              | succ k => simp [treeDirs, hx]
            refine ⟨ent'.filter (fun e => dotName e.1), u', g', ?_, ?_⟩
            · rw [hfs2]; simp only [emptied, hmem, if_true, hx]
            · rw [List.all_eq_true]
              intro e he
              exact (isDot_iff _).mpr (by simpa using (List.mem_filter.mp he).2)
          obtain ⟨ent', u', g', hx, hall⟩ := hi2
          simp only [kRmdir, pathStart_of E w2.fs hsne hslen, hstart, hlast2, hdd, Bool.false_eq_true, if_false, hx, hall, if_true]
        obtain ⟨w', r1, r2⟩ := rest (after w2 w2.fs (unlinked w2.fs d c)) (by rw [hfs2]; rfl) d3 d4
        refine ⟨w', ?_, r2⟩
        simp only [List.map_cons, delLoop, hdd, Bool.false_eq_true, if_false, e1, Option.bind_eq_bind, Option.bind_some]
        rw [hsub] at e3 ⊢
        rw [d1]
        simp only [Option.bind_some, e3, Bool.not_true, Bool.or_false]
        exact r1
      · -- not a directory
        have e1 := hlst false (by simp [hisd])
        have htd : treeDirs w.fs k i = [] := by
          cases htd : treeDirs w.fs k i with
          | nil => rfl
          | cons a t =>
            exfalso
            cases k with
            | zero => simp [treeDirs] at htd
            | succ k =>
              simp only [treeDirs] at htd
              split at htd
              · rename_i ent u' g' hx; exact hisd ⟨_, _, _, hx⟩
              · cases htd
        have e2 : unlink E (after w w.fs w.fs) (subpath path c) = some (.ok (), after (after w w.fs w.fs) w.fs (unlinked w.fs d c)) := by
          refine call_quiet E hQ (after w w.fs w.fs) _ _ _ ?_
          rw [hsub]
          show some (kUnlink E (path ++ 47 :: c) w.fs) = _
          simp only [kUnlink, pathStart_of E w.fs hsne hslen, hstart, hlast0, hni]
          obtain ⟨kd, u', g'⟩ := n
          cases kd with
          | dir ent => exact absurd ⟨_, _, _, hni⟩ hisd
          | reg data => rfl
          | link data => rfl
        obtain ⟨w', r1, r2⟩ := rest (after (after w w.fs w.fs) w.fs (unlinked w.fs d c)) (by rw [htd, emptied_nil]; rfl) rfl hg
        refine ⟨w', ?_, r2⟩
        simp only [List.map_cons, delLoop, hdd, Bool.false_eq_true, if_false, e1, Option.bind_eq_bind, Option.bind_some, e2]
        exact r1

theorem delTree_quiet (E : Env) (hQ : Quiet E) (he : E.euid ≤ 1) : ∀ k, DelOK E k := by
  intro k
  induction k with
  | zero =>
    intro w path d m _ _ _ _ _ hd hf
    obtain ⟨ent, u, g, hn⟩ := hd
    obtain ⟨n, h1, h2⟩ := hf
    rw [hn] at h1; cases h1
    exact absurd rfl (h2 ent)
  | succ k ih =>
    intro w path d m hg hp hl hlen hroot hd hf hnd hT hm hR free hfree
    obtain ⟨f, rfl⟩ : ∃ f, free = f + 1 := ⟨free - 1, by omega⟩
    have hd' := hd
    obtain ⟨ent, u, g, hn⟩ := hd
    have htree : treeDirs w.fs (k + 1) d = d :: subDirs w.fs k ent := by simp [treeDirs, hn, subDirs]
    rw [htree] at hnd hT hR ⊢
    obtain ⟨n, h1, h2⟩ := hf
    rw [hn] at h1; cases h1
    obtain ⟨h3, h4⟩ := h2 ent rfl
    have hfew0 : Fewer (emptied w.fs (d :: subDirs w.fs k ent)) w.fs := by
      have := emptied_fewer w.fs (a := d :: subDirs w.fs k ent) (b := []) (by simp)
      rw [emptied_nil] at this; exact this
    obtain ⟨fd, w1, e1, hf1, hfs1, hn1, g1⟩ := dirOpen_quiet E hQ he w hg path hp hl hlen hroot d (fewer_trusted hfew0 hT) m hm (fewer_resolves hfew0 hR) hd' (f + 1) (by omega)
    have hfd : w1.fds fd = some d := by rw [hf1]; simp [plus]
    have e2 : readNames E w1 fd = some (ent.map (·.1), after w1 w1.fs w1.fs) := by
      simp only [readNames, hfd, Option.bind_eq_bind, Option.bind_some]
      rw [call_quiet E hQ w1 _ (.ok (ent.map (·.1))) w1.fs (by simp only [namesIn, hfs1, hn])]
      rfl
    obtain ⟨w2, q1, q2, q3, q4⟩ := delLoop_quiet E hQ k ih path hp hl d u g m hm f (by omega) ent [] (after w1 w1.fs w1.fs) g1 (by show NotLink w1.fs w1.fs.root; rw [hfs1]; exact hroot)
      (by show w1.fs.node d = _; rw [hfs1]; exact hn) (by simp) h3 (by show ∀ e ∈ ent, _ → _ ∧ _ ∧ _ ∧ Fits w1.fs _ _ _; rw [hfs1]; exact h4)
      (by show (d :: subDirs w1.fs k ent).Nodup; rw [hfs1]; exact hnd)
      (by show TrustedPath (emptied w1.fs (d :: subDirs w1.fs k ent)) _ (start E w1.fs path) _ _; rw [hfs1]; exact hT)
      (by show Resolves (emptied w1.fs (d :: subDirs w1.fs k ent)) (start E w1.fs path) _ _ _; rw [hfs1]; exact hR) false
    have hfd2 : w2.fds fd = some d := by rw [q3]; exact hfd
    have hcl : close w2 fd = some { w2 with fds := without w2.fds fd } := close_spec _ _ d hfd2
    refine ⟨{ w2 with fds := without w2.fds fd }, ?_, ?_, ?_, good_without q4 _ _ _⟩
    · simp only [delTree, e1, Option.bind_eq_bind, Option.bind_some, e2, q1, hcl, Bool.not_false]
    · show w2.fs = _
      rw [q2]
      show emptied w1.fs (d :: subDirs w1.fs k ent) = _
      rw [hfs1]
    · show without w2.fds fd = w.fds
      rw [q3]
      show without w1.fds fd = w.fds
      rw [hf1, without_plus hn1]

end SafeOpen
