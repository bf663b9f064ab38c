import Verif.Spec.Getopt
/-! # Lemmas about the getopt model -/
namespace Getopt
open Spec (decl missing look longWord cluster word operand reading entries Look Decl Reading shortText)

/-! ## exchange -/

theorem swapSeg_ok (X : List Str) : ∀ (B M T Y : List Str), T.length = B.length →
    swapSeg (X ++ B ++ M ++ T ++ Y) X.length (X.length + B.length + M.length) B.length = some (X ++ T ++ M ++ B ++ Y) := by
  intro B
  induction B generalizing X with
  | nil => intro M T Y h; cases T with
    | nil => simp [swapSeg]
    | cons => cases h
  | cons b B ih =>
    intro M T Y h
    cases T with
    | nil => cases h
    | cons t T =>
      have hl : T.length = B.length := by simpa using h
      simp only [List.length_cons, swapSeg]
      have h1 : (X ++ (b :: B) ++ M ++ (t :: T) ++ Y)[X.length]? = some b := by simp
      have h2 : (X ++ (b :: B) ++ M ++ (t :: T) ++ Y)[X.length + (B.length + 1) + M.length]? = some t := by
        have : X ++ (b :: B) ++ M ++ (t :: T) ++ Y = (X ++ (b :: B) ++ M) ++ (t :: (T ++ Y)) := by simp
        rw [this, List.getElem?_append_right (by simp; omega)]
        have : X.length + (B.length + 1) + M.length - (X ++ (b :: B) ++ M).length = 0 := by simp; omega
        rw [this]; rfl
      rw [h1, h2]
      simp only [Option.bind_eq_bind, Option.bind_some]
      have h3 : ((X ++ (b :: B) ++ M ++ (t :: T) ++ Y).set X.length t).set (X.length + (B.length + 1) + M.length) b =
          (X ++ [t]) ++ B ++ (M ++ [b]) ++ T ++ Y := by
        have e1 : X ++ (b :: B) ++ M ++ (t :: T) ++ Y = X ++ (b :: (B ++ M ++ (t :: (T ++ Y)))) := by simp
        rw [e1, List.set_append_right (s := X) _ _ (by simp)]
        have e2 : X ++ ((b :: (B ++ M ++ (t :: (T ++ Y)))).set (X.length - X.length) t) = (X ++ t :: (B ++ M)) ++ (t :: (T ++ Y)) := by simp
        rw [e2, List.set_append_right (s := X ++ t :: (B ++ M)) _ _ (by simp; omega)]
        have e3 : X.length + (B.length + 1) + M.length - (X ++ t :: (B ++ M)).length = 0 := by simp; omega
        rw [e3]; simp
      rw [h3]
      have := ih (X ++ [t]) (M ++ [b]) T Y hl
      have e : (X ++ [t]).length + B.length + (M ++ [b]).length = X.length + (B.length + 1) + M.length + 1 := by simp; omega
      rw [e] at this
      have e' : (X ++ [t]).length = X.length + 1 := by simp
      rw [e'] at this
      rw [this]; simp

theorem exLoop_ok : ∀ (n : Nat) (X B C Y : List Str), B.length + C.length ≤ n →
    exLoop (X ++ B ++ C ++ Y) X.length (X.length + B.length) (X.length + B.length + C.length) = some (X ++ C ++ B ++ Y) := by
  intro n
  induction n with
  | zero =>
    intro X B C Y h
    have hb : B = [] := by apply List.length_eq_zero_iff.mp; omega
    have hc : C = [] := by apply List.length_eq_zero_iff.mp; omega
    subst hb hc
    rw [exLoop, if_neg (by simp)]; 
  | succ n ih =>
    intro X B C Y h
    rw [exLoop]
    by_cases hc : X.length + B.length + C.length > X.length + B.length ∧ X.length + B.length > X.length
    · rw [if_pos hc]
      have hB : 0 < B.length := by omega
      have hC : 0 < C.length := by omega
      split
      · rename_i hlt
        -- C = C1 ++ C2 with |C2| = |B|
        have hlt : B.length < C.length := by omega
        obtain ⟨C1, C2, rfl, hl⟩ : ∃ C1 C2, C = C1 ++ C2 ∧ C2.length = B.length :=
          ⟨C.take (C.length - B.length), C.drop (C.length - B.length), by simp, by simp; omega⟩
        have e1 : X.length + B.length - X.length = B.length := by omega
        have e2 : X.length + B.length + (C1 ++ C2).length - B.length = X.length + B.length + C1.length := by simp; omega
        rw [e1, e2]
        have e3 : X ++ B ++ (C1 ++ C2) ++ Y = X ++ B ++ C1 ++ C2 ++ Y := by simp
        rw [e3, swapSeg_ok X B C1 C2 Y hl]
        simp only [Option.bind_some]
        have := ih X C2 C1 (B ++ Y) (by simp at h; omega)
        have e4 : X ++ C2 ++ C1 ++ B ++ Y = X ++ C2 ++ C1 ++ (B ++ Y) := by simp
        rw [hl] at this
        rw [e4, this]; simp
      · rename_i hlt
        have hlt : C.length ≤ B.length := by omega
        obtain ⟨B1, B2, rfl, hl⟩ : ∃ B1 B2, B = B1 ++ B2 ∧ B1.length = C.length :=
          ⟨B.take C.length, B.drop C.length, by simp, by simp; omega⟩
        have e1 : X.length + (B1 ++ B2).length + C.length - (X.length + (B1 ++ B2).length) = B1.length := by simp; omega
        rw [e1]
        have e3 : X ++ (B1 ++ B2) ++ C ++ Y = X ++ B1 ++ B2 ++ C ++ Y := by simp
        have e2 : X.length + (B1 ++ B2).length = X.length + B1.length + B2.length := by simp; omega
        rw [e3, e2, swapSeg_ok X B1 B2 C Y hl.symm]
        simp only [Option.bind_some]
        have := ih (X ++ C) B2 B1 Y (by simp at h; omega)
        have e5 : (X ++ C).length = X.length + B1.length := by simp [hl]
        have e6 : X.length + B1.length + B2.length + C.length = X.length + B1.length + B2.length + B1.length := by omega
        rw [e5] at this
        rw [e6, this]; simp
    · rw [if_neg hc]
      have : B = [] ∨ C = [] := by
        cases B with
        | nil => exact .inl rfl
        | cons b B => cases C with
          | nil => exact .inr rfl
          | cons => simp at hc
      rcases this with rfl | rfl <;> simp

/-! ## The state between calls -/

/-- The vector is the program name, the options moved to the front, the operands skipped, the options read since, and the words not yet read. -/
structure Inv (s : St) (ord : Ordering) (a0 : Str) (O N P R : List Str) : Prop where
  argv : s.argv = a0 :: (O ++ N ++ P ++ R)
  first : s.first = 1 + O.length
  last : s.last = 1 + O.length + N.length
  optind : s.optind = 1 + O.length + N.length + P.length
  ordEq : s.ord = ord
  perm : ord ≠ .permute → N = []

theorem exchange_ok {s : St} {ord a0 O N P R} (h : Inv s ord a0 O N P R) :
    ∃ s', exchange s = some s' ∧ s'.next = s.next ∧ Inv s' ord a0 (O ++ P) N [] R := by
  have := exLoop_ok _ (a0 :: O) N P R (Nat.le_refl _)
  rw [exchange]
  have e : s.argv = (a0 :: O) ++ N ++ P ++ R := by rw [h.argv]; simp
  have e1 : s.first = (a0 :: O).length := by rw [h.first]; simp; omega
  have e2 : s.last = (a0 :: O).length + N.length := by rw [h.last]; simp; omega
  have e3 : s.optind = (a0 :: O).length + N.length + P.length := by rw [h.optind]; simp; omega
  rw [e, e1, e2, e3, this]
  refine ⟨_, rfl, rfl, ?_⟩
  constructor
  · simp
  · simp; omega
  · simp; omega
  · simp [h.optind]; omega
  · exact h.ordEq
  · exact h.perm

theorem skip_ok : ∀ (R L : List Str), skip (L ++ R) L.length = some (L.length + (R.takeWhile nonopt).length) := by
  intro R
  induction R with
  | nil => intro L; rw [skip]; simp
  | cons a R ih =>
    intro L
    rw [skip]
    have hlt : L.length < (L ++ a :: R).length := by simp
    rw [dif_pos hlt]
    have : (L ++ a :: R)[L.length] = a := by simp
    rw [this]
    by_cases hn : nonopt a = true
    · rw [if_pos hn]
      have := ih (L ++ [a])
      simp only [List.append_assoc, List.singleton_append, List.length_append, List.length_cons, List.length_nil] at this
      rw [this, List.takeWhile_cons_of_pos hn]; simp; omega
    · rw [if_neg hn, List.takeWhile_cons_of_neg hn]; simp

theorem permute_ok {s : St} {a0 O N P R} (h : Inv s .permute a0 O N P R) :
    ∃ s', permute s = some s' ∧ s'.next = s.next ∧ Inv s' .permute a0 (O ++ P) (N ++ R.takeWhile nonopt) [] (R.dropWhile nonopt) := by
  have key : ∀ s1 : St, s1.next = s.next → Inv { s1 with last := s1.optind } .permute a0 (O ++ P) N [] R →
      ∃ s', ((skip s1.argv s1.optind).bind fun i => some { s1 with optind := i, last := i }) = some s' ∧ s'.next = s.next ∧
        Inv s' .permute a0 (O ++ P) (N ++ R.takeWhile nonopt) [] (R.dropWhile nonopt) := by
    intro s1 hn h1
    have e := skip_ok R (a0 :: (O ++ P ++ N))
    have e1 : s1.argv = a0 :: (O ++ P ++ N) ++ R := by have := h1.argv; simpa using this
    have e2 : s1.optind = (a0 :: (O ++ P ++ N)).length := by have := h1.optind; simp at this ⊢; omega
    rw [← e1, ← e2] at e
    rw [e]
    refine ⟨_, rfl, hn, ?_⟩
    have hp := h1.optind; simp at hp
    have hf := h1.first; simp at hf
    constructor
    · show s1.argv = _; rw [e1]; simp
    · show s1.first = _; rw [hf]; simp
    · show s1.optind + _ = _; rw [hp]; simp; omega
    · show s1.optind + _ = _; rw [hp]; simp; omega
    · exact h1.ordEq
    · intro h; exact absurd rfl h
  rw [permute, if_pos h.ordEq]
  by_cases hN : N = []
  · subst hN
    have hf : s.first = s.last := by rw [h.first, h.last]; simp
    rw [if_neg (by simp [hf])]
    by_cases hP : s.last = s.optind
    · have : P = [] := by
        have h1 := h.last; have h2 := h.optind; apply List.length_eq_zero_iff.mp; simp only [List.length_nil] at h1 h2; omega
      subst this
      rw [if_neg (by simp [hP])]
      apply key s rfl
      refine ⟨?_, ?_, ?_, ?_, h.ordEq, h.perm⟩
      · have := h.argv; simpa using this
      · have := h.first; simpa using this
      · have := h.optind; simpa using this
      · have := h.optind; simpa using this
    · rw [if_pos hP]
      apply key { s with first := s.optind } rfl
      refine ⟨?_, ?_, ?_, ?_, h.ordEq, h.perm⟩
      · have := h.argv; simpa using this
      · have := h.optind; simp at this ⊢; omega
      · have := h.optind; simp at this ⊢; omega
      · have := h.optind; simp at this ⊢; omega
  · have hne : s.first ≠ s.last := by
      have h1 := h.first; have h2 := h.last
      have : 0 < N.length := List.length_pos_iff.mpr hN
      omega
    by_cases hP : s.last = s.optind
    · have : P = [] := by
        have h1 := h.last; have h2 := h.optind; apply List.length_eq_zero_iff.mp; omega
      subst this
      rw [if_neg (by simp [hP]), if_neg (by simp [hP])]
      apply key s rfl
      refine ⟨?_, ?_, ?_, ?_, h.ordEq, h.perm⟩
      · have := h.argv; simpa using this
      · have := h.first; simpa using this
      · have := h.optind; simpa using this
      · have := h.optind; simpa using this
    · rw [if_pos ⟨hne, hP⟩]
      obtain ⟨s1, e1, e2, h1⟩ := exchange_ok h
      rw [e1]
      apply key s1 e2
      refine ⟨h1.argv, h1.first, ?_, h1.optind, h1.ordEq, h1.perm⟩
      have := h1.optind; have h3 := h1.last; simp at this ⊢; omega

theorem nonopt_iff (a : Str) : nonopt a = true ↔ operand a := by
  rw [nonopt, operand]
  cases a with
  | nil => simp
  | cons x a =>
    cases a with
    | nil => simp; by_cases h : x = 45 <;> simp [h]; exact fun h' => h h'.symm
    | cons y a => simp; by_cases h : x = 45 <;> simp [h]; exact fun h' => h h'.symm

/-! ## Options in a word -/

theorem index_eq (o : Str) (c : UInt8) : index o c = if c ∈ o then some (o.dropWhile (· ≠ c)) else none := by
  induction o with
  | nil => simp [index]
  | cons x o ih =>
    rw [index]
    by_cases h : x = c
    · subst h; simp
    · rw [if_neg h, ih]
      have : c ∈ x :: o ↔ c ∈ o := by simp; exact fun h' => absurd h'.symm h
      simp only [this]
      split
      · simp [h]
      · rfl

/-- Two option strings that declare these characters alike and begin alike. -/
structure Agree (o os : Str) (t : Str) : Prop where
  idx : ∀ c ∈ t, index o c = index os c
  colon : o.head? = some 58 ↔ os.head? = some 58

theorem Agree.refl (os t : Str) : Agree os os t := ⟨fun _ _ => rfl, Iff.rfl⟩
theorem Agree.mono {o os t t' : Str} (h : Agree o os t) (hs : ∀ c ∈ t', c ∈ t) : Agree o os t' := ⟨fun c hc => h.idx c (hs c hc), h.colon⟩
theorem Agree.missing {o os t : Str} (h : Agree o os t) : (if o.head? = some 58 then (58 : Int) else 63) = missing os := by
  rw [Spec.missing]; simp only [h.colon]

theorem charInt_ne {c : UInt8} (h : c ≠ 255) : charInt c ≠ -1 := by
  have hc : c.toNat < 256 := c.toNat_lt
  have h' : c.toNat ≠ 255 := fun e => h (UInt8.toNat_inj.mp (by rw [e]; rfl))
  rw [charInt]; split <;> rename_i hlt
  · omega
  · omega

/-- What the calls that read one word leave: the next word is to be read. -/
structure Bnd (s : St) (ord : Ordering) (a0 : Str) (O N P R : List Str) : Prop where
  inv : Inv s ord a0 O N P R
  next : s.next = none ∨ s.next = some []

/-- One call in a word `a` with the words `R` behind it: it gives the first of the results `cl`, and either that was the last, and the next word is due (after the
argument taken, if `tk`), or it stays in the word with the remaining results. -/
def Sub (ord : Ordering) (a0 : Str) (O N P : List Str) (a : Str) (R : List Str) (rest : Str → List Call × Bool) (t : Str) (cl : List Call) (tk : Bool)
    (s1 : St) (c : Call) : Prop :=
  c.ret ≠ -1 ∧ ((cl = [c] ∧ (if tk then ∃ b R', R = b :: R' ∧ Bnd s1 ord a0 O N (P ++ [a, b]) R' else Bnd s1 ord a0 O N (P ++ [a]) R)) ∨
    ∃ t', t' ≠ [] ∧ (∃ x, t = x :: t') ∧ s1.next = some t' ∧ Inv s1 ord a0 O N P (a :: R) ∧ cl = c :: (rest t').1 ∧ tk = (rest t').2)

theorem Inv.word {s : St} {ord a0 O N P a R} (h : Inv s ord a0 O N P (a :: R)) (nx : Option Str) :
    Inv { s with optind := s.optind + 1, next := nx } ord a0 O N (P ++ [a]) R := by
  refine ⟨?_, h.first, h.last, ?_, h.ordEq, h.perm⟩
  · have := h.argv; simpa using this
  · have := h.optind; simp; omega

theorem Inv.words {s : St} {ord a0 O N P a b R} (h : Inv s ord a0 O N P (a :: b :: R)) (nx : Option Str) :
    Inv { s with optind := s.optind + 1 + 1, next := nx } ord a0 O N (P ++ [a, b]) R := by
  refine ⟨?_, h.first, h.last, ?_, h.ordEq, h.perm⟩
  · have := h.argv; simpa using this
  · have := h.optind; simp; omega

theorem Inv.at {s : St} {ord a0 O N P R} (h : Inv s ord a0 O N P R) : s.argv[s.optind]? = R.head? := by
  rw [h.argv, h.optind]
  have e : a0 :: (O ++ N ++ P ++ R) = (a0 :: (O ++ N ++ P)) ++ R := by simp
  rw [e, List.getElem?_append_right (by simp; omega)]
  have : 1 + O.length + N.length + P.length - (a0 :: (O ++ N ++ P)).length = 0 := by simp; omega
  rw [this]; cases R <;> rfl

theorem Inv.at1 {s : St} {ord a0 O N P a R} (h : Inv s ord a0 O N P (a :: R)) : s.argv[s.optind + 1]? = R.head? := by
  have := (h.word s.next).at; simpa using this

theorem Inv.len {s : St} {ord a0 O N P R} (h : Inv s ord a0 O N P R) : s.argv.length = s.optind + R.length := by
  rw [h.argv, h.optind]; simp; omega

theorem decl_index (os : Str) (c : UInt8) : decl os c = match index os c with
    | none => .unknown
    | some temp => if c = 58 then .unknown else if (temp.drop 1).head? = some 58 then if (temp.drop 2).head? = some 58 then .optional else .required else .flag := by
  rw [decl, index_eq]
  by_cases h : c ∈ os
  · rw [if_pos h]
    by_cases hc : c = 58
    · simp [hc]
    · simp only [hc, h, not_true_eq_false, or_self, if_false]
      generalize os.dropWhile (· ≠ c) = l
      cases l with
      | nil => rfl
      | cons x l => cases l with
        | nil => rfl
        | cons y l =>
          by_cases hy : y = 58
          · subst hy
            cases l with
            | nil => rfl
            | cons z l =>
              by_cases hz : z = 58
              · subst hz; rfl
              · simp [hz]
          · simp [hy]
  · rw [if_neg h]; simp [h]

theorem mem_of_index {os : Str} {c : UInt8} {l : Str} (h : index os c = some l) : c ∈ os := by
  rw [index_eq] at h; by_cases hc : c ∈ os
  · exact hc
  · rw [if_neg hc] at h; cases h

theorem cluster_cons {os : Str} {lg : Option (List LongOpt)} {c : UInt8} {t : Str} {next : Option Str} : lg.bind (fun ls => longWord os ls (c :: t) next) = none →
    cluster os lg (c :: t) next = match decl os c with
      | .unknown =>
        if lg.isSome ∧ c ∉ os then ([{ ret := 63 }], false)
        else
          let r := cluster os lg t next
          ({ ret := 63, optopt := some (charInt c) } :: r.1, r.2)
      | .flag =>
        let r := cluster os lg t next
        ({ ret := charInt c } :: r.1, r.2)
      | .optional => ([{ ret := charInt c, optarg := if t = [] then none else some t }], false)
      | .required =>
        if t ≠ [] then ([{ ret := charInt c, optarg := some t }], false)
        else match next with
          | some a => ([{ ret := charInt c, optarg := some a }], true)
          | none => ([{ ret := missing os, optopt := some (charInt c) }], false) := by
  intro hlg
  show (match lg.bind (fun ls => longWord os ls (c :: t) next) with
    | some (r, taken) => ([r], taken)
    | none => _) = _
  rw [hlg]; rfl

/-- A short option character. -/
theorem short_ok {s : St} {ord a0 O N P a R} (h : Inv s ord a0 O N P (a :: R)) {o os : Str} {c : UInt8} {t : Str} (ha : Agree o os [c]) (hff : 255 ∉ os)
    (lg : Option (List LongOpt)) (hlg : lg.bind (fun ls => longWord os ls (c :: t) R.head?) = none) (hlg' : lg.isSome = true → c ∈ os) :
    ∃ s1 r, short o s (c :: t) = some (s1, r) ∧
      Sub ord a0 O N P a R (fun t' => cluster os lg t' R.head?) (c :: t) (cluster os lg (c :: t) R.head?).1 (cluster os lg (c :: t) R.head?).2 s1 r := by
  rw [short, cluster_cons hlg, decl_index, ha.idx c (by simp)]
  have stay : ∀ r : Call, r.ret ≠ -1 → ∀ cl tk, cl = r :: (cluster os lg t R.head?).1 → tk = (cluster os lg t R.head?).2 →
      Sub ord a0 O N P a R (fun t' => cluster os lg t' R.head?) (c :: t) cl tk
        { s with next := some t, optind := if t = [] then s.optind + 1 else s.optind } r := by
    intro r hr cl tk h1 h2
    refine ⟨hr, ?_⟩
    by_cases ht : t = []
    · left
      subst ht
      rw [cluster] at h1 h2
      refine ⟨h1, ?_⟩
      rw [h2]
      exact ⟨h.word _, .inr rfl⟩
    · right
      refine ⟨t, ht, ⟨c, rfl⟩, rfl, ?_, h1, h2⟩
      simp only [ht, if_false]
      exact ⟨h.argv, h.first, h.last, h.optind, h.ordEq, h.perm⟩
  have eoi : ∀ nx, ({ s with next := nx, optind := if t = [] then s.optind + 1 else s.optind } : St) = if t = [] then { s with next := nx, optind := s.optind + 1 } else { s with next := nx } := by
    intro nx; split <;> rfl
  cases hi : index os c with
  | none =>
    have hl : ¬(lg.isSome = true ∧ c ∉ os) := fun ⟨h1, h2⟩ => h2 (hlg' h1)
    simp only [hl, if_false]
    exact ⟨_, _, rfl, stay _ (by simp) _ _ rfl rfl⟩
  | some temp =>
    have hm := mem_of_index hi
    have hl : ¬(lg.isSome = true ∧ c ∉ os) := fun ⟨h1, h2⟩ => h2 (hlg' h1)
    have hcn : charInt c ≠ -1 := charInt_ne (fun e => hff (e ▸ hm))
    by_cases hc : c = 58
    · simp only [if_pos hc, hl, if_false]
      exact ⟨_, _, rfl, stay _ (by simp) _ _ rfl rfl⟩
    · simp only [if_neg hc]
      by_cases h1 : (temp.drop 1).head? = some 58
      · simp only [if_pos h1]
        by_cases h2 : (temp.drop 2).head? = some 58
        · simp only [if_pos h2]
          by_cases ht : t = []
          · simp only [ht, ne_eq, not_true_eq_false, if_true, if_false]
            exact ⟨_, _, rfl, hcn, .inl ⟨rfl, ⟨h.word _, .inl rfl⟩⟩⟩
          · simp only [ht, ne_eq, not_false_eq_true, if_true, if_false]
            exact ⟨_, _, rfl, hcn, .inl ⟨rfl, ⟨h.word _, .inl rfl⟩⟩⟩
        · simp only [if_neg h2]
          by_cases ht : t = []
          · simp only [ht, ne_eq, not_true_eq_false, if_true, if_false]
            cases hR : R with
            | nil =>
              subst hR
              have := h.len
              rw [if_pos (by simp at this; omega)]
              refine ⟨_, _, rfl, ?_, .inl ⟨?_, ⟨h.word _, .inl rfl⟩⟩⟩
              · show (if o.head? = some 58 then (58 : Int) else 63) ≠ -1; split <;> decide
              · rw [ha.missing]; rfl
            | cons b R' =>
              subst hR
              have := h.len
              rw [if_neg (by simp at this; omega), h.at1]
              refine ⟨_, _, rfl, hcn, .inl ⟨rfl, ?_⟩⟩
              exact ⟨b, R', rfl, h.words _, .inl rfl⟩
          · simp only [ht, ne_eq, not_false_eq_true, if_true, if_false]
            exact ⟨_, _, rfl, hcn, .inl ⟨rfl, ⟨h.word _, .inl rfl⟩⟩⟩
      · simp only [if_neg h1]
        exact ⟨_, _, rfl, stay _ hcn _ _ rfl rfl⟩

/-! ## Long options -/

/-- The entries with their positions, counted from `i`. -/
def entriesFrom (i : Nat) (ls : List LongOpt) : List (Nat × LongOpt) := (List.range' i ls.length).zip ls

theorem entries_from (ls : List LongOpt) : entries ls = entriesFrom 0 ls := by rw [entries, entriesFrom, List.range_eq_range']

theorem entriesFrom_cons (i : Nat) (p : LongOpt) (ls : List LongOpt) : entriesFrom i (p :: ls) = (i, p) :: entriesFrom (i + 1) ls := by
  rw [entriesFrom, entriesFrom]; simp [List.range'_succ]

theorem prefix_iff (nm name : Str) : name.take nm.length = nm ↔ nm <+: name := by
  rw [List.prefix_iff_eq_take]; exact eq_comm

theorem findLong_cons (nm : Str) (p : LongOpt) (ps : List LongOpt) (i : Nat) (found : Option (Nat × LongOpt)) (ambig : Bool) :
    findLong nm (p :: ps) i found ambig = if p.name.take nm.length = nm then
      if nm.length = p.name.length then (some (i, p), ambig, true)
      else match found with
        | none => findLong nm ps (i + 1) (some (i, p)) ambig
        | some f => findLong nm ps (i + 1) (some f) true
    else findLong nm ps (i + 1) found ambig := rfl

theorem findLong_ok (nm : Str) : ∀ (ls : List LongOpt) (i : Nat) (found : Option (Nat × LongOpt)) (ambig : Bool),
    findLong nm ls i found ambig = match (entriesFrom i ls).find? (fun e => e.2.name = nm) with
      | some e => (some e, (findLong nm ls i found ambig).2.1, true)
      | none =>
        let l := (found.toList ++ (entriesFrom i ls).filter (fun e => nm <+: e.2.name))
        (l.head?, ambig || decide (2 ≤ l.length) , false) := by
  intro ls
  induction ls with
  | nil => intro i found ambig; simp [findLong, entriesFrom]; cases found <;> simp
  | cons p ls ih =>
    intro i found ambig
    rw [entriesFrom_cons]
    by_cases he : p.name = nm
    · rw [List.find?_cons_of_pos (by simp [he])]
      rw [findLong_cons, if_pos (by rw [he]; simp), if_pos (by rw [he])]
    · rw [List.find?_cons_of_neg (by simp [he])]
      rw [findLong_cons]
      by_cases hp : p.name.take nm.length = nm
      · rw [if_pos hp]
        have hpre : nm <+: p.name := (prefix_iff _ _).mp hp
        have hlen : nm.length ≠ p.name.length := fun hl => he (hpre.eq_of_length hl).symm
        rw [if_neg hlen, List.filter_cons_of_pos (by simpa using hpre)]
        cases found with
        | none =>
          simp only
          rw [ih]
          cases (entriesFrom (i + 1) ls).find? (fun e => e.2.name = nm) with
          | some e => rfl
          | none => simp
        | some f =>
          simp only
          rw [ih]
          cases (entriesFrom (i + 1) ls).find? (fun e => e.2.name = nm) with
          | some e => rfl
          | none => simp
      · rw [if_neg hp]
        have hpre : ¬nm <+: p.name := fun h => hp ((prefix_iff _ _).mpr h)
        rw [List.filter_cons_of_neg (by simpa using hpre)]; exact ih _ _ _

theorem findLong_look (nm : Str) (ls : List LongOpt) : ∃ found ambig exact, findLong nm ls 0 none false = (found, ambig, exact) ∧
    look ls nm = if ambig && !exact then .ambiguous else match found with | some f => .found f.1 f.2 | none => .none := by
  rw [look, entries_from]
  have h := findLong_ok nm ls 0 none false
  cases hf : (entriesFrom 0 ls).find? (fun e => e.2.name = nm) with
  | some e =>
    rw [hf] at h
    exact ⟨_, _, _, h, by simp⟩
  | none =>
    rw [hf] at h
    refine ⟨_, _, _, h, ?_⟩
    simp only [Option.toList_none, List.nil_append]
    cases hl : (entriesFrom 0 ls).filter (fun e => nm <+: e.2.name) with
    | nil => simp
    | cons e l => cases l with
      | nil => simp
      | cons e' l => simp

theorem look_mem {ls : List LongOpt} {nm : Str} {i : Nat} {p : LongOpt} (h : look ls nm = .found i p) : p ∈ ls := by
  have mem : ∀ e ∈ entries ls, e.2 ∈ ls := fun e he => (List.of_mem_zip (a := e.1) (b := e.2) he).2
  rw [look] at h
  cases hf : (entries ls).find? (fun e => e.2.name = nm) with
  | some e => rw [hf] at h; cases h; exact mem e (List.mem_of_find?_eq_some hf)
  | none =>
    rw [hf] at h
    simp only at h
    cases hl : (entries ls).filter (fun e => nm <+: e.2.name) with
    | nil => rw [hl] at h; cases h
    | cons e l => cases l with
      | nil =>
        rw [hl] at h; cases h
        have : e ∈ (entries ls).filter (fun e => nm <+: e.2.name) := by rw [hl]; simp
        exact mem e (List.mem_filter.mp this).1
      | cons e' l => rw [hl] at h; cases h

theorem dropWhile_eq (t : Str) : t.dropWhile (· ≠ 61) = [] ↔ 61 ∉ t := by
  induction t with
  | nil => simp
  | cons x t ih =>
    by_cases hx : x = 61
    · subst hx; simp
    · rw [List.dropWhile_cons_of_pos (by simpa using hx), ih]; simp; exact fun _ h => hx h.symm

/-- A word that is a long option: one call. -/
theorem long_ok {s : St} {ord a0 O N P a R} (h : Inv s ord a0 O N P (a :: R)) {o os : Str} {t' : Str} (ha : Agree o os t') (ls : List LongOpt) (t : Str)
    (hv : ∀ p ∈ ls, p.flag = false → p.val ≠ -1) {found : Option (Nat × LongOpt)} {ambig exact : Bool}
    (hf : findLong (t.takeWhile (· ≠ 61)) ls 0 none false = (found, ambig, exact)) :
    match longWord os ls t R.head? with
    | none => (ambig && !exact) = false ∧ found = none
    | some (r, tk) => r.ret ≠ -1 ∧ ∃ s1, (if tk then ∃ b R', R = b :: R' ∧ Bnd s1 ord a0 O N (P ++ [a, b]) R' else Bnd s1 ord a0 O N (P ++ [a]) R) ∧
        (if ambig && !exact then some ({ s with next := some [], optind := s.optind + 1 }, (⟨63, none, none, none, none⟩ : Call))
        else match found with
          | some f => longFound o s (t.dropWhile (· ≠ 61)) f
          | none => none) = some (s1, r) := by
  obtain ⟨f', a', e', h1, h2⟩ := findLong_look (t.takeWhile (· ≠ 61)) ls
  rw [hf] at h1
  obtain ⟨rfl, rfl, rfl⟩ : found = f' ∧ ambig = a' ∧ exact = e' := by simpa using h1
  rw [longWord]
  cases hb : (ambig && !exact) with
  | true =>
    rw [hb] at h2; simp only [if_true] at h2
    rw [h2]
    exact ⟨by simp, _, ⟨h.word _, .inr rfl⟩, rfl⟩
  | false =>
    rw [hb] at h2; simp only [Bool.false_eq_true, if_false] at h2
    cases found with
    | none => rw [h2]; exact ⟨rfl, rfl⟩
    | some f =>
      simp only at h2
      rw [h2]
      simp only [Bool.false_eq_true, if_false]
      have hmem := look_mem h2
      simp only [longFound]
      by_cases he : 61 ∈ t
      · rw [if_pos he]
        obtain ⟨x, v, hx⟩ : ∃ x v, t.dropWhile (· ≠ 61) = x :: v := by
          cases hd : t.dropWhile (· ≠ 61) with
          | nil => exact absurd he ((dropWhile_eq t).mp hd)
          | cons x v => exact ⟨x, v, rfl⟩
        simp only [hx]
        by_cases h0 : f.2.hasArg = 0
        · simp only [h0, if_true, ne_eq, not_true_eq_false, if_false]
          exact ⟨by simp, _, ⟨h.word _, .inr rfl⟩, rfl⟩
        · simp only [h0, if_false, ne_eq, not_false_eq_true, if_true]
          cases hfl : f.2.flag with
          | true => exact ⟨by simp, _, ⟨h.word _, .inr rfl⟩, rfl⟩
          | false => exact ⟨hv _ hmem hfl, _, ⟨h.word _, .inr rfl⟩, rfl⟩
      · rw [if_neg he]
        have hd := (dropWhile_eq t).mpr he
        simp only [hd]
        by_cases h1 : f.2.hasArg = 1
        · simp only [h1, if_true]
          cases R with
          | nil =>
            have := h.len
            simp only [List.head?_nil]
            refine ⟨?_, _, ⟨h.word _, .inr rfl⟩, ?_⟩
            · rw [missing]; split <;> decide
            · rw [if_neg (by simp at this; omega), ha.missing]
          | cons b R' =>
            have := h.len
            simp only [List.head?_cons]
            have hlt : s.optind + 1 < s.argv.length := by simp only [List.length_cons] at this; omega
            simp only [hlt, if_true, h.at1, List.head?_cons, Option.bind_some]
            cases hfl : f.2.flag with
            | true => exact ⟨by simp, _, ⟨b, R', rfl, h.words _, .inr rfl⟩, rfl⟩
            | false => exact ⟨hv _ hmem hfl, _, ⟨b, R', rfl, h.words _, .inr rfl⟩, rfl⟩
        · simp only [h1, if_false]
          cases hfl : f.2.flag with
          | true => exact ⟨by simp, _, ⟨h.word _, .inr rfl⟩, rfl⟩
          | false => exact ⟨hv _ hmem hfl, _, ⟨h.word _, .inr rfl⟩, rfl⟩

/-! ## One call in a word -/

theorem index_none (o : Str) (c : UInt8) : (index o c).isNone = true ↔ c ∉ o := by
  rw [index_eq]; by_cases h : c ∈ o <;> simp [h]

/-- The long options tried on the characters of a short-option word. -/
def tried (os : Str) (long : Option (List LongOpt)) (longOnly : Bool) (a : Str) : Option (List LongOpt) :=
  if longOnly ∧ (2 < a.length ∨ ∀ c ∈ a.drop 1, c ∉ os) then long else none

theorem decode_cluster {s : St} {ord a0 O N P a R} (h : Inv s ord a0 O N P (a :: R)) {o os : Str} {c : UInt8} {t : Str} {long : Option (List LongOpt)} {longOnly : Bool}
    (ha : Agree o os (a.drop 1)) (hff : 255 ∉ os) (hv : ∀ ls, long = some ls → ∀ p ∈ ls, p.flag = false → p.val ≠ -1)
    (hd : long.isSome = true → ¬[45, 45] <+: a) (ho : ¬operand a) (hc : c ∈ a.drop 1) (hn : s.next = some (c :: t)) :
    ∃ s1 r, decode o long longOnly s = some (s1, r) ∧
      Sub ord a0 O N P a R (fun t' => cluster os (tried os long longOnly a) t' R.head?) (c :: t)
        (cluster os (tried os long longOnly a) (c :: t) R.head?).1 (cluster os (tried os long longOnly a) (c :: t) R.head?).2 s1 r := by
  have hac : Agree o os [c] := ha.mono (fun x hx => by rw [List.mem_singleton.mp hx]; exact hc)
  rw [decode, hn]
  simp only [Option.bind_some]
  cases long with
  | none =>
    have : tried os none longOnly a = none := by rw [tried]; split <;> rfl
    rw [this]
    exact short_ok h hac hff none rfl (fun h => by cases h)
  | some ls =>
    have hat : s.argv[s.optind]? = some a := h.at
    rw [hat]
    simp only [Option.bind_some]
    obtain ⟨y, a', rfl⟩ : ∃ y a', a = 45 :: y :: a' := by
      rw [operand] at ho
      cases a with
      | nil => simp at ho
      | cons x a =>
        have hx : x = 45 := by
          by_cases hx : x = 45
          · exact hx
          · exact absurd (.inr (by simp; exact fun h => hx h.symm)) ho
        subst hx
        cases a with
        | nil => exact absurd (.inl rfl) ho
        | cons y a => exact ⟨y, a, rfl⟩
    have hy : y ≠ 45 := fun e => hd rfl (by rw [e]; simp)
    have hcond : (decide (((45 :: y :: a').drop 1).head? = some 45) || (longOnly && (((45 :: y :: a').drop 2).head?.isSome || (((45 :: y :: a').drop 1).head?.bind (index o)).isNone))) = true ↔
        (longOnly = true ∧ (2 < (45 :: y :: a').length ∨ ∀ c ∈ (45 :: y :: a').drop 1, c ∉ os)) := by
      have e1 : index o y = index os y := ha.idx y (by simp)
      simp only [List.drop_succ_cons, List.drop_zero, List.head?_cons, Option.bind_some, e1, index_none, Bool.or_eq_true, Bool.and_eq_true, decide_eq_true_eq]
      cases a' with
      | nil => simp [hy]
      | cons z a' => simp [hy]
    by_cases hm : (longOnly = true ∧ (2 < (45 :: y :: a').length ∨ ∀ c ∈ (45 :: y :: a').drop 1, c ∉ os))
    · rw [if_pos (hcond.mpr hm)]
      have ht : tried os (some ls) longOnly (45 :: y :: a') = some ls := if_pos hm
      rw [ht]
      obtain ⟨found, ambig, exact, hf⟩ : ∃ found ambig exact, findLong ((c :: t).takeWhile (· ≠ 61)) ls 0 none false = (found, ambig, exact) := ⟨_, _, _, rfl⟩
      have hl := long_ok h ha ls (c :: t) (hv ls rfl) hf
      simp only [hf]
      cases hw : longWord os ls (c :: t) R.head? with
      | none =>
        rw [hw] at hl
        obtain ⟨hb, rfl⟩ := hl
        simp only [hb, Bool.false_eq_true, if_false]
        have e2 : index o c = index os c := ha.idx c hc
        by_cases hcm : c ∈ os
        · have : (!longOnly || decide (((45 :: y :: a').drop 1).head? = some 45) || ((c :: t).head?.bind (index o)).isNone) = false := by
            have : (index os c).isNone = false := by
              cases hh : (index os c).isNone with
              | false => rfl
              | true => exact absurd hcm ((index_none _ _).mp hh)
            simp [hm.1, hy, e2, this]
          rw [if_neg (Bool.eq_false_iff.mp this)]
          exact short_ok h hac hff (some ls) hw (fun _ => hcm)
        · have : (!longOnly || decide (((45 :: y :: a').drop 1).head? = some 45) || ((c :: t).head?.bind (index o)).isNone) = true := by
            simp only [List.head?_cons, Option.bind_some, e2, (index_none os c).mpr hcm, Bool.or_true]
          rw [if_pos this]
          refine ⟨_, _, rfl, by simp, .inl ?_⟩
          rw [cluster_cons (lg := some ls) (os := os) (c := c) (t := t) (next := R.head?) hw, decl]
          simp only [hcm, not_false_eq_true, or_true, if_true, Option.isSome_some, and_self]
          exact ⟨trivial, h.word _, .inr rfl⟩
      | some rt =>
        obtain ⟨r, tk⟩ := rt
        rw [hw] at hl
        obtain ⟨hr, s1, hb, he⟩ := hl
        refine ⟨s1, r, ?_, hr, .inl ?_⟩
        · rw [← he]
          cases hamb : (ambig && !exact) with
          | true => rfl
          | false =>
            simp only [Bool.false_eq_true, if_false]
            cases found with
            | some f => rfl
            | none => rw [hamb] at he; cases he
        · have : cluster os (some ls) (c :: t) R.head? = ([r], tk) := by
            show (match (some ls).bind (fun ls => longWord os ls (c :: t) R.head?) with
              | some (r, taken) => ([r], taken)
              | none => _) = _
            rw [Option.bind_some, hw]
          rw [this]
          exact ⟨rfl, hb⟩
    · rw [if_neg (fun h => hm (hcond.mp h))]
      have ht : tried os (some ls) longOnly (45 :: y :: a') = none := if_neg hm
      rw [ht]
      exact short_ok h hac hff none rfl (fun h => by cases h)

/-- A word that begins with two dashes, where there are long options. -/
theorem decode_long {s : St} {ord a0 O N P a R} (h : Inv s ord a0 O N P (a :: R)) {o os : Str} {t' : Str} {ls : List LongOpt} {longOnly : Bool}
    (ha : Agree o os t') (hv : ∀ p ∈ ls, p.flag = false → p.val ≠ -1) (hd : [45, 45] <+: a) (hn : s.next = some (a.drop 2)) :
    ∃ s1 r tk, decode o (some ls) longOnly s = some (s1, r) ∧ r.ret ≠ -1 ∧
      (match longWord os ls (a.drop 2) R.head? with
        | some (r, taken) => ([r], taken)
        | none => ([({ ret := 63 } : Call)], false)) = ([r], tk) ∧
      (if tk then ∃ b R', R = b :: R' ∧ Bnd s1 ord a0 O N (P ++ [a, b]) R' else Bnd s1 ord a0 O N (P ++ [a]) R) := by
  rw [decode, hn]
  simp only [Option.bind_some]
  rw [h.at]
  simp only [List.head?_cons, Option.bind_some]
  obtain ⟨a', rfl⟩ := hd
  have e1 : ([45, 45] ++ a').drop 2 = a' := by simp
  have e2 : (([45, 45] ++ a').drop 1).head? = some (45 : UInt8) := by simp
  rw [e1, e2]
  simp only [decide_true, Bool.true_or, if_true, Bool.or_true]
  obtain ⟨found, ambig, exact, hf⟩ : ∃ found ambig exact, findLong (a'.takeWhile (· ≠ 61)) ls 0 none false = (found, ambig, exact) := ⟨_, _, _, rfl⟩
  have hl := long_ok h ha ls a' hv hf
  simp only [hf]
  cases hw : longWord os ls a' R.head? with
  | none =>
    rw [hw] at hl
    obtain ⟨hb, rfl⟩ := hl
    simp only [hb, Bool.false_eq_true, if_false]
    exact ⟨_, _, _, rfl, by simp, rfl, h.word _, .inr rfl⟩
  | some rt =>
    obtain ⟨r, tk⟩ := rt
    rw [hw] at hl
    obtain ⟨hr, s1, hb, he⟩ := hl
    refine ⟨s1, r, tk, ?_, hr, rfl, hb⟩
    rw [← he]
    cases hamb : (ambig && !exact) with
    | true => rfl
    | false =>
      simp only [Bool.false_eq_true, if_false]
      cases found with
      | some f => rfl
      | none => rw [hamb] at he; cases he

/-! ## The end of the line -/

/-- The state after the last call. -/
def Final (a0 : Str) (O N P : List Str) (r : Reading) (s : St) : Prop :=
  s.argv = a0 :: (O ++ P ++ r.options ++ (N ++ r.operands)) ∧ s.optind = 1 + O.length + P.length + r.options.length

/-- From a call on (with the option string `o1` in that call) up to the end. -/
def Goal (posix : Bool) (o : Str) (long : Option (List LongOpt)) (longOnly : Bool) (x : Option (St × Call)) (cs : List Call) (fin : St → Prop) : Prop :=
  ∃ s1 c, x = some (s1, c) ∧ ((c.ret = -1 ∧ cs = [] ∧ fin s1) ∨
    (c.ret ≠ -1 ∧ ∃ cs', cs = c :: cs' ∧ ∃ s2, Run posix o long longOnly s1 cs' s2 ∧ fin s2))

theorem Goal.run {posix o long longOnly s cs fin} (h : Goal posix o long longOnly (call posix o long longOnly s) cs fin) :
    ∃ s2, Run posix o long longOnly s cs s2 ∧ fin s2 := by
  obtain ⟨s1, c, he, ⟨h1, rfl, h3⟩ | ⟨h1, cs', rfl, s2, h2, h3⟩⟩ := h
  · exact ⟨s1, .eof he h1, h3⟩
  · exact ⟨s2, .more he h1 h2, h3⟩

theorem Goal.mono {posix o long longOnly x cs fin fin'} (h : Goal posix o long longOnly x cs fin) (hf : ∀ s, fin s → fin' s) : Goal posix o long longOnly x cs fin' := by
  obtain ⟨s1, c, he, ⟨h1, h2, h3⟩ | ⟨h1, cs', h2, s2, h3, h4⟩⟩ := h
  · exact ⟨s1, c, he, .inl ⟨h1, h2, hf _ h3⟩⟩
  · exact ⟨s1, c, he, .inr ⟨h1, cs', h2, s2, h3, hf _ h4⟩⟩

theorem call_body {posix o long longOnly} {s : St} {ord a0 O N P R} (h : Inv s ord a0 O N P R) : call posix o long longOnly s = body o long longOnly s := by
  rw [call, if_neg]; have := h.optind; omega

/-- The hypotheses about the option string, the long options and the words. -/
structure Ok (o os : Str) (long : Option (List LongOpt)) (R : List Str) : Prop where
  agree : ∀ a ∈ R, Agree o os (shortText long a)
  colon : o.head? = some 58 ↔ os.head? = some 58
  ff : 255 ∉ os
  vals : ∀ ls, long = some ls → ∀ p ∈ ls, p.flag = false → p.val ≠ -1

theorem Ok.sub {o os long R R'} (h : Ok o os long R) (hs : ∀ a ∈ R', a ∈ R) : Ok o os long R' := ⟨fun a ha => h.agree a (hs a ha), h.colon, h.ff, h.vals⟩
theorem Ok.refl {o os long R} (h : Ok o os long R) : Ok os os long R := ⟨fun _ _ => Agree.refl _ _, Iff.rfl, h.ff, h.vals⟩

/-- Between two words, everything up to the end happens as the reading says. -/
def AtWord (posix : Bool) (ord : Ordering) (o os : Str) (long : Option (List LongOpt)) (longOnly : Bool) (R : List Str) : Prop :=
  ∀ s a0 O N P o1, Bnd s ord a0 O N P R → Ok o os long R → Ok o1 os long R →
    Goal posix o long longOnly (body o1 long longOnly s) (reading ord os long longOnly R).calls (Final a0 O N P (reading ord os long longOnly R))

/-- What is left of the reading once the word `a` has been read and `tk` says whether it took the next word. -/
def after (ord : Ordering) (os : Str) (long : Option (List LongOpt)) (longOnly : Bool) (R : List Str) (tk : Bool) : Reading :=
  reading ord os long longOnly (if tk then R.tail else R)

theorem Goal.bnd {posix ord o os long longOnly a R} (ih : ∀ R', R'.length ≤ R.length → AtWord posix ord o os long longOnly R') (hk : Ok o os long R)
    {s1 : St} {c : Call} {a0 : Str} {O N P : List Str} {tk : Bool} (hr : c.ret ≠ -1)
    (hb : if tk then ∃ b R', R = b :: R' ∧ Bnd s1 ord a0 O N (P ++ [a, b]) R' else Bnd s1 ord a0 O N (P ++ [a]) R) :
    Goal posix o long longOnly (some (s1, c)) (c :: (after ord os long longOnly R tk).calls)
      (Final a0 O N P ⟨[], a :: (if tk then R.take 1 else []) ++ (after ord os long longOnly R tk).options, (after ord os long longOnly R tk).operands⟩) := by
  refine ⟨s1, c, rfl, .inr ⟨hr, _, rfl, ?_⟩⟩
  cases tk with
  | true =>
    obtain ⟨b, R', rfl, hb⟩ := hb
    have hk' : Ok o os long R' := hk.sub (fun a ha => by simp [ha])
    have := ih R' (by simp) s1 a0 O N (P ++ [a, b]) o hb hk' hk'
    rw [← call_body (posix := posix) hb.inv] at this
    obtain ⟨s2, h1, h2, h3⟩ := this.run
    refine ⟨s2, h1, ?_, ?_⟩
    · rw [h2]; simp [after]
    · rw [h3]; simp [after]; omega
  | false =>
    have hb : Bnd s1 ord a0 O N (P ++ [a]) R := hb
    have := ih R (Nat.le_refl _) s1 a0 O N (P ++ [a]) o hb hk hk
    rw [← call_body (posix := posix) hb.inv] at this
    obtain ⟨s2, h1, h2, h3⟩ := this.run
    refine ⟨s2, h1, ?_, ?_⟩
    · rw [h2]; simp [after]
    · rw [h3]; simp [after]; omega

/-- In a word of short options. -/
theorem in_cluster {posix ord o os long longOnly a R} (ih : ∀ R', R'.length ≤ R.length → AtWord posix ord o os long longOnly R') (hk : Ok o os long (a :: R))
    (hd : long.isSome = true → ¬[45, 45] <+: a) (ho : ¬operand a) {a0 : Str} {O N P : List Str} :
    ∀ (t : Str) (s : St) (o1 : Str), t ≠ [] → (∀ c ∈ t, c ∈ a.drop 1) → Ok o1 os long (a :: R) → Inv s ord a0 O N P (a :: R) → s.next = some t →
    Goal posix o long longOnly (decode o1 long longOnly s)
      ((cluster os (tried os long longOnly a) t R.head?).1 ++ (after ord os long longOnly R (cluster os (tried os long longOnly a) t R.head?).2).calls)
      (Final a0 O N P ⟨[], a :: (if (cluster os (tried os long longOnly a) t R.head?).2 then R.take 1 else []) ++
          (after ord os long longOnly R (cluster os (tried os long longOnly a) t R.head?).2).options,
        (after ord os long longOnly R (cluster os (tried os long longOnly a) t R.head?).2).operands⟩) := by
  intro t
  induction t with
  | nil => intro s o1 h; exact absurd rfl h
  | cons c t iht =>
    intro s o1 _ hsub hk1 hi hn
    have hag : Agree o1 os (a.drop 1) := by
      have := hk1.agree a (by simp)
      rw [shortText, if_neg (fun h => hd h.1 h.2)] at this; exact this
    obtain ⟨s1, r, he, hr, hs⟩ := decode_cluster (longOnly := longOnly) hi hag hk1.ff hk1.vals hd ho (hsub c (by simp)) hn
    rw [he]
    rcases hs with ⟨h1, h2⟩ | ⟨t', ht', ⟨x, hx⟩, hn', hi', h1, h2⟩
    · rw [h1]
      exact Goal.bnd ih (hk.sub (fun a ha => by simp [ha])) hr h2
    · obtain ⟨rfl, rfl⟩ : c = x ∧ t = t' := by simpa using hx
      rw [h1, h2]
      refine ⟨s1, r, rfl, .inr ⟨hr, _, rfl, ?_⟩⟩
      have := iht s1 o ht' (fun y hy => hsub y (by simp [hy])) hk hi' hn'
      have hb : body o long longOnly s1 = decode o long longOnly s1 := by
        rw [body, if_neg (by rw [hn']; simp [ht'])]
      rw [← hb, ← call_body (posix := posix) hi'] at this
      exact this.run

theorem word_eq {os : Str} {long : Option (List LongOpt)} {longOnly : Bool} {a : Str} {next : Option Str} (hd : long.isSome = true → ¬[45, 45] <+: a) :
    word os long longOnly a next = cluster os (tried os long longOnly a) (a.drop 1) next := by
  rw [tried]
  cases long with
  | none => simp only [ite_self, word]
  | some ls =>
    simp only [word]
    rw [if_neg (hd rfl)]
    split <;> rfl

theorem reading_word {ord : Ordering} {os : Str} {long : Option (List LongOpt)} {longOnly : Bool} {a : Str} {R : List Str} (h1 : a ≠ [45, 45]) (h2 : ¬operand a) :
    reading ord os long longOnly (a :: R) = ⟨(word os long longOnly a R.head?).1 ++ (after ord os long longOnly R (word os long longOnly a R.head?).2).calls,
      a :: (if (word os long longOnly a R.head?).2 then R.take 1 else []) ++ (after ord os long longOnly R (word os long longOnly a R.head?).2).options,
      (after ord os long longOnly R (word os long longOnly a R.head?).2).operands⟩ := by
  rw [reading.eq_def]
  simp only [h1, h2, if_false]
  cases h : (word os long longOnly a R.head?).2 <;> simp [after]

/-- The permuting done before a word: the operands skipped and the first word that is none. -/
theorem reading_skip (os : Str) (long : Option (List LongOpt)) (longOnly : Bool) (R : List Str) :
    reading .permute os long longOnly R = ⟨(reading .permute os long longOnly (R.dropWhile nonopt)).calls, (reading .permute os long longOnly (R.dropWhile nonopt)).options,
      R.takeWhile nonopt ++ (reading .permute os long longOnly (R.dropWhile nonopt)).operands⟩ := by
  induction R with
  | nil => rfl
  | cons a R ih =>
    by_cases hn : nonopt a = true
    · rw [List.dropWhile_cons_of_pos hn, List.takeWhile_cons_of_pos hn]
      have ho := (nonopt_iff a).mp hn
      have hd : a ≠ [45, 45] := by intro e; subst e; revert hn; decide
      rw [reading.eq_def]
      simp only [hd, ho, if_false, if_true]
      rw [ih]; rfl
    · rw [List.dropWhile_cons_of_neg hn, List.takeWhile_cons_of_neg hn]; rfl

theorem dashes_ok {s : St} {ord a0 O N P R} (h : Inv s ord a0 O N P ([45, 45] :: R)) (hNP : N = [] ∨ P = []) :
    ∃ s', dashes s = some s' ∧ s'.argv = a0 :: (O ++ P ++ [[45, 45]] ++ (N ++ R)) ∧ s'.first = 1 + O.length + P.length + 1 ∧ s'.last = s'.argv.length ∧
      s'.optind = s'.argv.length := by
  have hat := h.at
  have hlen := h.len
  rw [dashes, if_pos (by simp at hlen; omega), hat]
  simp only [List.head?_cons, Option.bind_some, if_true]
  by_cases hN : N = []
  · subst hN
    have hfl : s.first = s.last := by rw [h.first, h.last]; simp
    have ho := h.optind
    have hf := h.first
    simp only [hfl, ne_eq, not_true_eq_false, false_and, if_false, if_true, Option.bind_some]
    refine ⟨_, rfl, ?_, ?_, rfl, rfl⟩
    · have := h.argv; simpa using this
    · simp at ho ⊢; omega
  · have hP : P = [] := hNP.resolve_left hN
    subst hP
    have hw : Inv { s with optind := s.optind + 1 } ord a0 O N [[45, 45]] R := by have := h.word s.next; simpa using this
    have hne : s.first ≠ s.last := by
      have h1 := h.first; have h2 := h.last
      have : 0 < N.length := List.length_pos_iff.mpr hN
      omega
    have hl : s.last ≠ s.optind + 1 := by have h1 := h.last; have h2 := h.optind; simp at h2; omega
    obtain ⟨s1, e1, e2, h1⟩ := exchange_ok hw
    rw [if_pos ⟨hne, hl⟩, e1]
    refine ⟨_, rfl, ?_, ?_, rfl, rfl⟩
    · have := h1.argv; simpa using this
    · have := h1.first; simp at this ⊢; omega

theorem dashes_other {s : St} {ord a0 O N P R} (h : Inv s ord a0 O N P R) (hd : ∀ a ∈ R.head?, a ≠ [45, 45]) : dashes s = some s := by
  rw [dashes]
  split
  · rename_i hne
    rw [h.at]
    cases R with
    | nil => have := h.len; simp at this; omega
    | cons a R =>
      simp only [List.head?_cons, Option.bind_some]
      rw [if_neg (hd a rfl)]
  · rfl

/-- A call between two words, with the permuting done. -/
theorem at_word {posix ord o os long longOnly} {R : List Str} (ih : ∀ R', R'.length < R.length → AtWord posix ord o os long longOnly R') {s : St} {a0 : Str} {O N P : List Str}
    {o1 : Str} (hi : Inv s ord a0 O N P R) (hn : s.next = none ∨ s.next = some []) (hnp : ord = .permute → P = [] ∧ ∀ a ∈ R.head?, ¬operand a) (hk : Ok o os long R) (hk1 : Ok o1 os long R) :
    Goal posix o long longOnly (((dashes s).bind fun s =>
        if s.optind = s.argv.length then
          some (.ret (if s.first ≠ s.last then { s with optind := s.first } else s) ⟨-1, none, none, none, none⟩)
        else s.argv[s.optind]?.bind fun a =>
          if nonopt a then
            if s.ord = .require then some (.ret s ⟨-1, none, none, none, none⟩)
            else some (.ret { s with optind := s.optind + 1 } ⟨1, some a, none, none, none⟩)
          else some (Adv.go { s with next := some (a.drop (1 + if long.isSome && (a.drop 1).head? = some 45 then 1 else 0)) })).bind fun
      | .ret s c => some (s, c)
      | .go s => decode o1 long longOnly s) (reading ord os long longOnly R).calls (Final a0 O N P (reading ord os long longOnly R)) := by
  have hNP : N = [] ∨ P = [] := by
    by_cases ho : ord = .permute
    · exact .inr (hnp ho).1
    · exact .inl (hi.perm ho)
  cases R with
  | nil =>
    rw [dashes_other hi (fun a ha => by cases ha)]
    have hlen := hi.len
    simp only [Option.bind_some]
    rw [if_pos (by simp at hlen; omega)]
    refine ⟨_, _, rfl, .inl ⟨rfl, by rw [reading], ?_⟩⟩
    rw [reading]
    have h1 := hi.first; have h2 := hi.last; have h3 := hi.optind; have h4 := hi.argv
    rcases hNP with rfl | rfl
    · have hfl : s.first = s.last := by rw [h1, h2]; simp
      rw [if_neg (by simp [hfl])]
      exact ⟨by rw [h4]; simp, by rw [h3]; simp⟩
    · split
      · exact ⟨by simp [h4], by simp [h1]⟩
      · rename_i hfl
        have hN : N = [] := List.length_eq_zero_iff.mp (by omega)
        subst hN
        exact ⟨by rw [h4]; simp, by rw [h3]⟩

  | cons a R =>
    by_cases hdd : a = [45, 45]
    · subst hdd
      obtain ⟨s1, e, h1, h2, h3, h4⟩ := dashes_ok hi hNP
      rw [e]
      simp only [Option.bind_some]
      rw [if_pos h4]
      have hr : reading ord os long longOnly ([45, 45] :: R) = ⟨[], [[45, 45]], R⟩ := by rw [reading.eq_def]; simp
      refine ⟨_, _, rfl, .inl ⟨rfl, by rw [hr], ?_⟩⟩
      rw [hr]
      split
      · exact ⟨by simp [h1], by simp [h2]⟩
      · rename_i hfl
        have hl : s1.first = s1.argv.length := by rw [← h3]; exact Decidable.not_not.mp hfl
        exact ⟨by simp [h1], by rw [h4, ← hl, h2]; simp⟩
    · rw [dashes_other hi (fun b hb => by cases hb; exact hdd)]
      have hlen := hi.len
      have hat : s.argv[s.optind]? = some a := hi.at
      simp only [Option.bind_some]
      rw [if_neg (by simp at hlen; omega), hat]
      simp only [Option.bind_some]
      by_cases hop : operand a
      · rw [if_pos ((nonopt_iff a).mpr hop)]
        rw [hi.ordEq]
        cases ord with
        | permute => exact absurd hop ((hnp rfl).2 a rfl)
        | require =>
          have hN := hi.perm (by decide)
          subst hN
          have hr : reading .require os long longOnly (a :: R) = ⟨[], [], a :: R⟩ := by rw [reading.eq_def]; simp [hdd, hop]
          simp only [if_true, Option.bind_some]
          refine ⟨_, _, rfl, .inl ⟨rfl, by rw [hr], ?_⟩⟩
          rw [hr]
          have h3 := hi.optind; have h4 := hi.argv
          exact ⟨by rw [h4]; simp, by rw [h3]; simp⟩
        | inOrder =>
          have hr : reading .inOrder os long longOnly (a :: R) = ⟨{ ret := 1, optarg := some a } :: (reading .inOrder os long longOnly R).calls,
              a :: (reading .inOrder os long longOnly R).options, (reading .inOrder os long longOnly R).operands⟩ := by
            rw [reading.eq_def]; simp [hdd, hop]
          rw [if_neg (by decide), hr]
          have hb : Bnd { s with optind := s.optind + 1, ord := .inOrder } .inOrder a0 O N (P ++ [a]) R := by
            have h := hi.word s.next
            exact ⟨⟨h.argv, h.first, h.last, h.optind, rfl, h.perm⟩, hn⟩
          exact Goal.bnd (tk := false) (a := a) (fun R' h => ih R' (by simp; omega)) (hk.sub (fun b hb => by simp [hb])) (by simp) hb
      · rw [if_neg (fun h => hop ((nonopt_iff a).mp h)), reading_word hdd hop]
        simp only [Option.bind_some]
        obtain ⟨y, a', rfl⟩ : ∃ y a', a = 45 :: y :: a' := by
          rw [operand] at hop
          cases a with
          | nil => simp at hop
          | cons x a =>
            have hx : x = 45 := by
              by_cases hx : x = 45
              · exact hx
              · exact absurd (.inr (by simp; exact fun h => hx h.symm)) hop
            subst hx
            cases a with
            | nil => exact absurd (.inl rfl) hop
            | cons y a => exact ⟨y, a, rfl⟩
        have hi' : ∀ nx, Inv { s with next := nx } ord a0 O N P ((45 :: y :: a') :: R) := fun nx => ⟨hi.argv, hi.first, hi.last, hi.optind, hi.ordEq, hi.perm⟩
        have hkR : Ok o os long R := hk.sub (fun b hb => by simp [hb])
        have ih' : ∀ R', R'.length ≤ R.length → AtWord posix ord o os long longOnly R' := fun R' h => ih R' (by simp; omega)
        by_cases hl : long.isSome = true ∧ y = 45
        · obtain ⟨hl, rfl⟩ := hl
          obtain ⟨ls, rfl⟩ := Option.isSome_iff_exists.mp hl
          simp only [List.drop_succ_cons, List.drop_zero, List.head?_cons, decide_true, Option.isSome_some, Bool.and_true, if_true]
          obtain ⟨s1, r, tk, he, hr, hw, hb⟩ := decode_long (s := { s with next := some a' }) (longOnly := longOnly) (hi' _) (hk1.agree _ List.mem_cons_self) (hk1.vals ls rfl) (by simp) (by simp)
          have hw' : word os (some ls) longOnly (45 :: 45 :: a') R.head? = ([r], tk) := by rw [← hw, word, if_pos (by simp)]; rfl
          rw [hw']
          have := Goal.bnd (posix := posix) ih' hkR hr hb
          rw [← he] at this
          exact this
        · have hd : long.isSome = true → ¬[45, 45] <+: (45 :: y :: a' : Str) := by
            intro h1 h2; simp at h2; exact hl ⟨h1, h2.symm⟩
          rw [word_eq hd]
          have e : (long.isSome && decide (((45 :: y :: a').drop 1).head? = some (45 : UInt8))) = false := by
            cases h1 : long.isSome with
            | false => rfl
            | true => simp; exact fun h => hl ⟨h1, h⟩
          rw [e]
          exact in_cluster ih' hk hd hop _ _ o1 (by simp) (fun c hc => hc) hk1 (hi' _) rfl

theorem body_ok (posix : Bool) (ord : Ordering) (o os : Str) (long : Option (List LongOpt)) (longOnly : Bool) : ∀ (n : Nat) (R : List Str), R.length ≤ n →
    AtWord posix ord o os long longOnly R := by
  have step : ∀ R : List Str, (∀ R', R'.length < R.length → AtWord posix ord o os long longOnly R') → AtWord posix ord o os long longOnly R := by
    intro R ih s a0 O N P o1 hb hk hk1
    rw [body, if_pos hb.next, advance]
    by_cases ho : ord = .permute
    · subst ho
      obtain ⟨s1, e, hn, hi⟩ := permute_ok hb.inv
      rw [e]
      simp only [Option.bind_some]
      have hsub : ∀ a ∈ R.dropWhile nonopt, a ∈ R := fun a ha => (List.dropWhile_sublist nonopt).subset ha
      have hle : (R.dropWhile nonopt).length ≤ R.length := (List.dropWhile_sublist nonopt).length_le
      have hhead : ∀ a ∈ (R.dropWhile nonopt).head?, ¬operand a := by
        intro a ha hop
        have := List.head?_dropWhile_not nonopt R
        rw [Option.mem_def.mp ha] at this
        simp at this
        rw [(nonopt_iff a).mpr hop] at this; cases this
      have := at_word (posix := posix) (longOnly := longOnly) (R := R.dropWhile nonopt) (fun R' h => ih R' (by omega)) hi (by rw [hn]; exact hb.next) (fun _ => ⟨rfl, hhead⟩)
        (hk.sub hsub) (hk1.sub hsub)
      rw [reading_skip os long longOnly R]
      exact this.mono (fun s ⟨h1, h2⟩ => ⟨by rw [h1]; simp, by rw [h2]; simp; omega⟩)
    · have hp : permute s = some s := by rw [permute, if_neg (by rw [hb.inv.ordEq]; exact ho)]
      rw [hp]
      simp only [Option.bind_some]
      exact at_word (posix := posix) (fun R' h => ih R' (by omega)) hb.inv hb.next (fun h => absurd h ho) hk hk1
  intro n
  induction n with
  | zero =>
    intro R hR
    apply step R; intro R' h; omega
  | succ n ih => intro R hR; apply step R; intro R' h; exact ih R' (by omega)

end Getopt
