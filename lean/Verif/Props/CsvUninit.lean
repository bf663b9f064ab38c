import Verif.Props.Csv
/-! # C61: the texts on which the CSV parser reads memory it has not written -/
namespace CsvParser

/-- Zeros behind the start of the block are not behind the end of every field read so far. -/
def Z (m : List (Option UInt8)) (out : List (List UInt8)) : Prop := ∀ i, 0 < i → m[i]? = some (some 0) → ∃ f ∈ out, i ≤ f.length
/-- No zeros before `n`. -/
def NZ (m : List (Option UInt8)) (n : Nat) : Prop := ∀ j, j < n → m[j]? ≠ some (some 0)

theorem write_set {m m' : List (Option UInt8)} {i : Nat} {v : Option UInt8} (h : CMem.write m i v = some m') : m' = m.set i v := by
  unfold CMem.write at h
  split at h
  · simpa using h.symm
  · cases h

theorem str_zero {m : List (Option UInt8)} {f : List UInt8} (h : CMem.str m = some f) : m[f.length]? = some (some 0) := by
  obtain ⟨rest, hr⟩ := str_len m f h
  rw [hr, List.getElem?_append_right (by simp)]
  simp

theorem str_nz : ∀ (m : List (Option UInt8)) (f : List UInt8), CMem.str m = some f → 0 ∉ f := by
  intro m
  induction m with
  | nil => intro f h; simp [CMem.str] at h
  | cons a m ih =>
    intro f h
    cases a with
    | none => simp [CMem.str] at h
    | some c =>
      by_cases hc : c = 0
      · simp [CMem.str, hc] at h; subst h; simp
      · simp only [CMem.str, hc, if_false] at h
        cases hm : CMem.str m with
        | none => simp [hm] at h
        | some t =>
          simp [hm] at h
          subst h
          have := ih t hm
          intro hmem
          rcases List.mem_cons.1 hmem with e | e
          · exact hc e.symm
          · exact this e

theorem Z.reset {m : List (Option UInt8)} {out : List (List UInt8)} (h : Z m out) (v : Option UInt8) : Z (m.set 0 v) out := by
  intro i hi hz
  rw [List.getElem?_set_ne (by omega)] at hz
  exact h i hi hz

theorem Z.put {m : List (Option UInt8)} {out : List (List UInt8)} (h : Z m out) (k : Nat) {c : UInt8} (hc : c ≠ 0) : Z (m.set k (some c)) out := by
  intro i hi hz
  by_cases hk : k = i
  · subst hk
    rw [List.getElem?_set] at hz
    simp [hc] at hz
  · rw [List.getElem?_set_ne hk] at hz
    exact h i hi hz

theorem Z.more {m : List (Option UInt8)} {out : List (List UInt8)} (h : Z m out) (l : List (List UInt8)) : Z m (out ++ l) := by
  intro i hi hz
  obtain ⟨f, hf, hl⟩ := h i hi hz
  exact ⟨f, by simp [hf], hl⟩

theorem NZ.str {m : List (Option UInt8)} {n : Nat} (h : NZ m n) {f : List UInt8} (hs : CMem.str m = some f) : n ≤ f.length := by
  rcases Nat.lt_or_ge f.length n with hl | hl
  · exact absurd (str_zero hs) (h _ hl)
  · exact hl

theorem NZ.put {m : List (Option UInt8)} {n : Nat} (h : NZ m n) {c : UInt8} (hc : c ≠ 0) : NZ (m.set n (some c)) (n + 1) := by
  intro j hj hz
  by_cases hn : n = j
  · subst hn; rw [List.getElem?_set] at hz; simp [hc] at hz
  · rw [List.getElem?_set_ne hn] at hz; exact h j (by omega) hz

theorem NZ.set {m : List (Option UInt8)} {n : Nat} (h : NZ m n) (v : Option UInt8) : NZ (m.set n v) n := by
  intro j hj hz
  rw [List.getElem?_set_ne (by omega)] at hz; exact h j hj hz

/-- What holds between two bytes of the text, except after a misplaced quote. -/
structure Inv (p : P) : Prop where
  a : ∀ i, p.sn = some i → NZ p.mem i
  b : p.st = .withQuote ∨ p.st = .internalQuote → ∃ i, p.sn = some i
  c : p.st = .newLine → p.sn = some 0
  d : Z p.mem p.out ∨ (p.st = .spaceAfterQuote ∧ p.sn = none ∧ ∃ n, NZ p.mem n ∧ ∀ i, 0 < i → p.mem[i]? = some (some 0) → i ≤ n ∨ ∃ f ∈ p.out, i ≤ f.length)

theorem put_inv {p q : P} {c : UInt8} {st : St} (hc : c ≠ 0) (ha : ∀ i, p.sn = some i → NZ p.mem i) (hz : Z p.mem p.out)
    (hst : st ≠ .newLine) (h : CsvParser.put p c st = some q) : Inv q := by
  unfold CsvParser.put at h
  cases hs : p.sn with
  | none => simp [hs] at h
  | some i =>
    simp only [hs, Option.bind_eq_bind, Option.bind_some] at h
    cases hw : CMem.write p.mem i (some c) with
    | none => simp [hw] at h
    | some m =>
      simp only [hw, Option.bind_some, Option.some.injEq] at h
      subst h
      have hm := write_set hw
      subst hm
      exact ⟨by intro k hk; cases hk; exact (ha i hs).put hc, fun _ => ⟨_, rfl⟩, fun e => absurd e hst, .inl (hz.put i hc)⟩

theorem finish_z {p q : P} {st : St} (ha : ∀ i, p.sn = some i → NZ p.mem i) (hz : Z p.mem p.out) (h : finish p st = some q) :
    q.st = st ∧ q.sn = none ∧ Z q.mem q.out := by
  unfold finish at h
  cases hs : p.sn with
  | none => simp [hs] at h
  | some i =>
    simp only [hs, Option.bind_eq_bind, Option.bind_some] at h
    cases hw : CMem.write p.mem i (some 0) with
    | none => simp [hw] at h
    | some m =>
      simp only [hw, Option.bind_some] at h
      cases hf : CMem.str m with
      | none => simp [hf] at h
      | some f =>
        simp only [hf, Option.bind_some, Option.some.injEq] at h
        subst h
        have hm := write_set hw
        subst hm
        refine ⟨rfl, rfl, ?_⟩
        intro k hk hzk
        by_cases he : i = k
        · subst he
          exact ⟨f, by simp, ((ha i hs).set _).str hf⟩
        · rw [List.getElem?_set_ne he] at hzk
          obtain ⟨g, hg, hl⟩ := hz k hk hzk
          exact ⟨g, by simp [hg], hl⟩

theorem reset_z {p q : P} (hz : Z p.mem p.out) (h : CsvParser.reset p = some q) : q.st = p.st ∧ q.sn = p.sn ∧ q.out = p.out ∧ Z q.mem q.out := by
  unfold CsvParser.reset at h
  cases hw : CMem.write p.mem 0 (some 0) with
  | none => simp [hw] at h
  | some m =>
    simp only [hw, Option.bind_eq_bind, Option.bind_some, Option.some.injEq] at h
    subst h
    have hm := write_set hw
    subst hm
    exact ⟨rfl, rfl, rfl, hz.reset _⟩

/-- `Inv` of a state in which the cursor is NULL. -/
theorem inv_ofNone {p : P} (hs : p.sn = none) (h1 : p.st ≠ .newLine) (h2 : p.st ≠ .withQuote) (h3 : p.st ≠ .internalQuote) (hz : Z p.mem p.out) : Inv p :=
  ⟨(by intro i hi; rw [hs] at hi; cases hi), fun h => absurd h (by simp [h2, h3]), fun h => absurd h h1, .inl hz⟩

theorem step_inv {p q : P} {c : UInt8} (hc : c ≠ 0) (h : Inv p) (hs : step p c = some (.ok q)) : q.st = .error ∨ Inv q := by
  obtain ⟨ha, hb, hcc, hd⟩ := h
  have hz : p.st ≠ .spaceAfterQuote → Z p.mem p.out := fun hne => hd.resolve_right (fun h => hne h.1)
  have pm : ∀ {p' : P} {st : St}, (∀ i, p'.sn = some i → NZ p'.mem i) → Z p'.mem p'.out → st ≠ .newLine →
      (CsvParser.put p' c st).map Except.ok = some (.ok q : Except Err P) → Inv q := by
    intro p' st h1 h2 h3 h4
    cases hp : CsvParser.put p' c st with
    | none => simp [hp] at h4
    | some r => simp [hp] at h4; subst h4; exact put_inv hc h1 h2 h3 hp
  have z0 : ∀ i, some 0 = some i → NZ p.mem i := by intro i hi; cases hi; intro j hj; omega
  have quoted : Z p.mem p.out → (CsvParser.reset p).bind (fun p => some (Except.ok { p with sn := none, st := .leadingQuote })) = some (.ok q : Except Err P) → Inv q := by
    intro hz h
    cases hr : CsvParser.reset p with
    | none => simp [hr] at h
    | some r =>
      simp only [hr, Option.bind_some, Option.some.injEq, Except.ok.injEq] at h
      subst h
      obtain ⟨_, _, _, r4⟩ := reset_z hz hr
      exact inv_ofNone rfl (by simp) (by simp) (by simp) r4
  have finres : Z p.mem p.out → ((finish p .separator).bind fun p => (CsvParser.reset p).bind fun p => some (Except.ok p)) = some (.ok q : Except Err P) → Inv q := by
    intro hz h
    cases hf : finish p .separator with
    | none => simp [hf] at h
    | some r =>
      simp only [hf, Option.bind_some] at h
      obtain ⟨f1, f2, f3⟩ := finish_z ha hz hf
      cases hr : CsvParser.reset r with
      | none => simp [hr] at h
      | some t =>
        simp only [hr, Option.bind_some, Option.some.injEq, Except.ok.injEq] at h
        subst h
        obtain ⟨r1, r2, _, r4⟩ := reset_z f3 hr
        exact inv_ofNone (by rw [r2, f2]) (by simp [r1, f1]) (by simp [r1, f1]) (by simp [r1, f1]) r4
  unfold step at hs
  split at hs
  · cases hs
  · next e =>
    have hz := hz (by simp [e])
    split at hs
    · rw [hcc e] at hs
      simp only [Option.bind_eq_bind, Option.bind_some] at hs
      cases hw : CMem.write p.mem 0 (some 0) with
      | none => simp [hw] at hs
      | some m =>
        simp only [hw, Option.bind_some, Option.some.injEq, Except.ok.injEq] at hs
        subst hs
        have hm := write_set hw
        subst hm
        exact .inr (inv_ofNone rfl (by simp) (by simp) (by simp) ((hz.reset _).more _))
    · split at hs
      · exact .inr (pm ha hz (by simp) hs)
      · split at hs
        · exact .inr (quoted hz hs)
        · exact .inr (pm ha hz (by simp) hs)
  · next e =>
    have hz := hz (by simp [e])
    split at hs
    · exact .inr (finres hz hs)
    · split at hs
      · exact .inr (pm ha hz (by simp) hs)
      · split at hs
        · exact .inr (quoted hz hs)
        · exact .inr (pm ha hz (by simp) hs)
  · next e =>
    have hz := hz (by simp [e])
    split at hs
    · exact .inr (finres hz hs)
    · split at hs
      · left
        cases hr : CsvParser.reset p with
        | none => simp [hr] at hs
        | some r => simp [hr] at hs; rw [← hs]
      · exact .inr (pm ha hz (by simp) hs)
  · next e =>
    have hz := hz (by simp [e])
    split at hs
    · cases hr : CsvParser.reset p with
      | none => simp [hr] at hs
      | some r =>
        simp only [hr, Option.bind_eq_bind, Option.bind_some] at hs
        obtain ⟨r1, r2, r3, r4⟩ := reset_z hz hr
        cases hf : CMem.str r.mem with
        | none => simp [hf] at hs
        | some f =>
          simp only [hf, Option.bind_some, Option.some.injEq, Except.ok.injEq] at hs
          subst hs
          exact .inr (inv_ofNone rfl (by simp) (by simp) (by simp) (r4.more _))
    · split at hs
      · exact .inr (pm (p' := { p with sn := some 0 }) z0 hz (by simp) hs)
      · split at hs
        · exact .inr (quoted hz hs)
        · exact .inr (pm (p' := { p with sn := some 0 }) z0 hz (by simp) hs)
  · next e =>
    have hz := hz (by simp [e])
    split at hs
    · simp only [Option.some.injEq, Except.ok.injEq] at hs
      subst hs
      exact .inr ⟨z0, fun _ => ⟨0, rfl⟩, by simp, .inl hz⟩
    · exact .inr (pm (p' := { p with sn := some 0 }) z0 hz (by simp) hs)
  · next e =>
    have hz := hz (by simp [e])
    split at hs
    · right
      cases hf : finish p .separator with
      | none => simp [hf] at hs
      | some r =>
        simp only [hf, Option.map_some, Option.some.injEq, Except.ok.injEq] at hs
        subst hs
        obtain ⟨f1, f2, f3⟩ := finish_z ha hz hf
        exact inv_ofNone f2 (by simp [f1]) (by simp [f1]) (by simp [f1]) f3
    · split at hs
      · simp only [Option.some.injEq, Except.ok.injEq] at hs
        subst hs
        exact .inr ⟨ha, by simp, by simp, .inl hz⟩
      · split at hs
        · exact .inr (pm ha hz (by simp) hs)
        · left
          cases hr : CsvParser.reset p with
          | none => simp [hr] at hs
          | some r =>
            simp only [hr, Option.bind_eq_bind, Option.bind_some] at hs
            cases hn : r.sn with
            | none => simp [hn] at hs
            | some i => simp [hn] at hs; rw [← hs]
  · next e =>
    have hz := hz (by simp [e])
    split at hs
    · simp only [Option.some.injEq, Except.ok.injEq] at hs
      subst hs
      exact .inr ⟨ha, fun _ => hb (.inl e), by simp, .inl hz⟩
    · exact .inr (pm ha hz (by simp) hs)
  · next e =>
    split at hs
    · cases hf : CMem.str p.mem with
      | none => simp [hf] at hs
      | some f =>
        simp only [hf, Option.bind_eq_bind, Option.bind_some, Option.some.injEq, Except.ok.injEq] at hs
        subst hs
        refine .inr (inv_ofNone rfl (by simp) (by simp) (by simp) ?_)
        rcases hd with hz | ⟨_, _, n, hn, hz⟩
        · exact hz.more _
        · intro i hi h0
          rcases hz i hi h0 with h | ⟨g, hg, hl⟩
          · exact ⟨f, by simp, Nat.le_trans h (hn.str hf)⟩
          · exact ⟨g, by simp [hg], hl⟩
    · split at hs
      · split at hs
        · next i hi =>
          cases hw : CMem.write p.mem i (some 0) with
          | none => simp [hw] at hs
          | some m =>
            simp only [hw, Option.bind_eq_bind, Option.bind_some, Option.some.injEq, Except.ok.injEq] at hs
            subst hs
            have hm := write_set hw
            subst hm
            have hz : Z p.mem p.out := hd.resolve_right (by rintro ⟨_, h, _⟩; rw [hi] at h; cases h)
            refine .inr ⟨by simp, by simp [e], by simp [e], .inr ⟨e, rfl, i, (ha i hi).set _, ?_⟩⟩
            intro k hk h0
            by_cases he : i = k
            · exact .inl (by omega)
            · rw [List.getElem?_set_ne he] at h0
              exact .inr (hz k hk h0)
        · next hi =>
          simp only [Option.some.injEq, Except.ok.injEq] at hs
          subst hs
          exact .inr ⟨ha, hb, hcc, hd⟩
      · left
        cases hr : CsvParser.reset p with
        | none => simp [hr] at hs
        | some r => simp [hr] at hs; rw [← hs]

theorem loop_append : ∀ (a b : List UInt8) (p : P), loop p (a ++ b) = (loop p a).bind fun r => match r with
    | .error e => some (.error e)
    | .ok q => loop q b := by
  intro a
  induction a with
  | nil => intro b p; simp [loop]
  | cons c a ih =>
    intro b p
    rw [List.cons_append, loop, loop]
    cases step p c with
    | none => rfl
    | some r =>
      cases r with
      | error e => rfl
      | ok q => simpa using ih b q

theorem loop_inv : ∀ (s : List UInt8) (p q : P), 0 ∉ s → p.st = .error ∨ Inv p → loop p s = some (.ok q) → q.st = .error ∨ Inv q := by
  intro s
  induction s with
  | nil => intro p q _ h hl; simp only [loop, Option.some.injEq, Except.ok.injEq] at hl; subst hl; exact h
  | cons c s ih =>
    intro p q h0 h hl
    rw [loop] at hl
    cases hs : step p c with
    | none => simp [hs] at hl
    | some r =>
      cases r with
      | error e => simp [hs] at hl
      | ok p' =>
        simp only [hs, Option.bind_eq_bind, Option.bind_some] at hl
        refine ih p' q (by simp at h0; exact h0.2) ?_ hl
        rcases h with h | h
        · simp [step, h] at hs
        · exact step_inv (by simp at h0; exact fun e => h0.1 e.symm) h hs

/-- A state whose block is longer. -/
def grow (e : List (Option UInt8)) (p : P) : P := { p with mem := p.mem ++ e }

theorem write_grow {m m' : List (Option UInt8)} {i : Nat} {v : Option UInt8} (e : List (Option UInt8)) (h : CMem.write m i v = some m') :
    CMem.write (m ++ e) i v = some (m' ++ e) := by
  unfold CMem.write at h ⊢
  split at h
  · next hi =>
    simp only [Option.some.injEq] at h
    subst h
    rw [if_pos (by simp; omega)]
    rw [List.set_append_left _ _ hi]
  · cases h

theorem str_grow {m : List (Option UInt8)} {f : List UInt8} (e : List (Option UInt8)) (h : CMem.str m = some f) : CMem.str (m ++ e) = some f := by
  induction m generalizing f with
  | nil => simp [CMem.str] at h
  | cons a m ih =>
    cases a with
    | none => simp [CMem.str] at h
    | some c =>
      by_cases hc : c = 0
      · simp [CMem.str, hc] at h ⊢; exact h
      · simp only [CMem.str, hc, if_false, List.cons_append] at h ⊢
        cases hm : CMem.str m with
        | none => simp [hm] at h
        | some t => rw [hm] at h; rw [ih hm]; exact h

theorem put_grow {p q : P} {c : UInt8} {st : St} (e : List (Option UInt8)) (h : CsvParser.put p c st = some q) : CsvParser.put (grow e p) c st = some (grow e q) := by
  unfold CsvParser.put at h ⊢
  cases hs : p.sn with
  | none => simp [hs] at h
  | some i =>
    simp only [hs, Option.bind_eq_bind, Option.bind_some] at h
    cases hw : CMem.write p.mem i (some c) with
    | none => simp [hw] at h
    | some m =>
      simp only [hw, Option.bind_some, Option.some.injEq] at h
      subst h
      simp [grow, hs, write_grow e hw]

theorem finish_grow {p q : P} {st : St} (e : List (Option UInt8)) (h : finish p st = some q) : finish (grow e p) st = some (grow e q) := by
  unfold finish at h ⊢
  cases hs : p.sn with
  | none => simp [hs] at h
  | some i =>
    simp only [hs, Option.bind_eq_bind, Option.bind_some] at h
    cases hw : CMem.write p.mem i (some 0) with
    | none => simp [hw] at h
    | some m =>
      simp only [hw, Option.bind_some] at h
      cases hf : CMem.str m with
      | none => simp [hf] at h
      | some f =>
        simp only [hf, Option.bind_some, Option.some.injEq] at h
        subst h
        simp [grow, hs, write_grow e hw, str_grow e hf]

theorem reset_grow {p q : P} (e : List (Option UInt8)) (h : CsvParser.reset p = some q) : CsvParser.reset (grow e p) = some (grow e q) := by
  unfold CsvParser.reset at h ⊢
  cases hw : CMem.write p.mem 0 (some 0) with
  | none => simp [hw] at h
  | some m =>
    simp only [hw, Option.bind_eq_bind, Option.bind_some, Option.some.injEq] at h
    subst h
    simp [grow, write_grow e hw]

theorem step_grow {p q : P} {c : UInt8} (e : List (Option UInt8)) (hs : step p c = some (.ok q)) : step (grow e p) c = some (.ok (grow e q)) := by
  have hst : (grow e p).st = p.st := rfl
  have hsn : (grow e p).sn = p.sn := rfl
  have hout : (grow e p).out = p.out := rfl
  have hmem : (grow e p).mem = p.mem ++ e := rfl
  have pm : ∀ {p' : P} {st : St}, (CsvParser.put p' c st).map Except.ok = some (.ok q : Except Err P) →
      (CsvParser.put (grow e p') c st).map Except.ok = some (.ok (grow e q) : Except Err P) := by
    intro p' st h4
    cases hp : CsvParser.put p' c st with
    | none => simp [hp] at h4
    | some r => simp [hp] at h4; subst h4; simp [put_grow e hp]
  unfold step at hs ⊢
  rw [hst]
  split at hs
  · cases hs
  · next e1 =>
    split at hs
    · next h1 =>
      rw [if_pos h1, hsn, hout, hmem]
      cases hi : p.sn with
      | none => simp [hi] at hs
      | some i =>
        cases hw : CMem.write p.mem i (some 0) with
        | none => simp [hi, hw] at hs
        | some m => simp [hi, hw] at hs; subst hs; simp [write_grow e hw, grow]
    · next h1 =>
      rw [if_neg h1]
      split at hs
      · next h2 => rw [if_pos h2]; exact pm hs
      · next h2 =>
        rw [if_neg h2]
        split at hs
        · next h3 =>
          rw [if_pos h3]
          cases hr : CsvParser.reset p with
          | none => simp [hr] at hs
          | some r => simp [hr] at hs; subst hs; simp only [reset_grow e hr, Option.bind_eq_bind, Option.bind_some]; simp [grow]
        · next h3 => rw [if_neg h3]; exact pm hs
  · next e1 =>
    split at hs
    · next h1 =>
      rw [if_pos h1]
      cases hf : finish p .separator with
      | none => simp [hf] at hs
      | some r =>
        cases hr : CsvParser.reset r with
        | none => simp [hf, hr] at hs
        | some t => simp [hf, hr] at hs; subst hs; simp [finish_grow e hf, reset_grow e hr]
    · next h1 =>
      rw [if_neg h1]
      split at hs
      · next h2 => rw [if_pos h2]; exact pm hs
      · next h2 =>
        rw [if_neg h2]
        split at hs
        · next h3 =>
          rw [if_pos h3]
          cases hr : CsvParser.reset p with
          | none => simp [hr] at hs
          | some r => simp [hr] at hs; subst hs; simp only [reset_grow e hr, Option.bind_eq_bind, Option.bind_some]; simp [grow]
        · next h3 => rw [if_neg h3]; exact pm hs
  · next e1 =>
    split at hs
    · next h1 =>
      rw [if_pos h1]
      cases hf : finish p .separator with
      | none => simp [hf] at hs
      | some r =>
        cases hr : CsvParser.reset r with
        | none => simp [hf, hr] at hs
        | some t => simp [hf, hr] at hs; subst hs; simp [finish_grow e hf, reset_grow e hr]
    · next h1 =>
      rw [if_neg h1]
      split at hs
      · next h3 =>
        rw [if_pos h3]
        cases hr : CsvParser.reset p with
        | none => simp [hr] at hs
        | some r => simp [hr] at hs; subst hs; simp only [reset_grow e hr, Option.bind_eq_bind, Option.bind_some]; simp [grow]
      · next h3 => rw [if_neg h3]; exact pm hs
  · next e1 =>
    split at hs
    · next h1 =>
      rw [if_pos h1]
      cases hr : CsvParser.reset p with
      | none => simp [hr] at hs
      | some r =>
        cases hf : CMem.str r.mem with
        | none => simp [hr, hf] at hs
        | some f =>
          simp [hr, hf] at hs; subst hs
          simp only [reset_grow e hr, Option.bind_eq_bind, Option.bind_some]; simp [grow, str_grow e hf]
    · next h1 =>
      rw [if_neg h1]
      split at hs
      · next h2 => rw [if_pos h2]; exact pm (p' := { p with sn := some 0 }) hs
      · next h2 =>
        rw [if_neg h2]
        split at hs
        · next h3 =>
          rw [if_pos h3]
          cases hr : CsvParser.reset p with
          | none => simp [hr] at hs
          | some r => simp [hr] at hs; subst hs; simp only [reset_grow e hr, Option.bind_eq_bind, Option.bind_some]; simp [grow]
        · next h3 => rw [if_neg h3]; exact pm (p' := { p with sn := some 0 }) hs
  · next e1 =>
    split at hs
    · next h1 => rw [if_pos h1]; simp at hs; subst hs; simp [grow]
    · next h1 => rw [if_neg h1]; exact pm (p' := { p with sn := some 0 }) hs
  · next e1 =>
    split at hs
    · next h1 =>
      rw [if_pos h1]
      cases hf : finish p .separator with
      | none => simp [hf] at hs
      | some r => simp [hf] at hs; subst hs; simp [finish_grow e hf]
    · next h1 =>
      rw [if_neg h1]
      split at hs
      · next h2 => rw [if_pos h2]; simp at hs; subst hs; simp [grow]
      · next h2 =>
        rw [if_neg h2]
        split at hs
        · next h3 => rw [if_pos h3]; exact pm hs
        · next h3 =>
          rw [if_neg h3]
          cases hr : CsvParser.reset p with
          | none => simp [hr] at hs
          | some r =>
            cases hn : r.sn with
            | none => simp [hr, hn] at hs
            | some i => simp [hr, hn] at hs; subst hs; simp only [reset_grow e hr, Option.bind_eq_bind, Option.bind_some]; simp [grow, hn]
  · next e1 =>
    split at hs
    · next h1 => rw [if_pos h1]; simp at hs; subst hs; simp [grow]
    · next h1 => rw [if_neg h1]; exact pm hs
  · next e1 =>
    split at hs
    · next h1 =>
      rw [if_pos h1]
      cases hf : CMem.str p.mem with
      | none => simp [hf] at hs
      | some f => simp [hf] at hs; subst hs; simp [grow, str_grow e hf]
    · next h1 =>
      rw [if_neg h1]
      split at hs
      · next h2 =>
        rw [if_pos h2, hsn]
        split at hs
        · next i hi =>
          cases hw : CMem.write p.mem i (some 0) with
          | none => simp [hw] at hs
          | some m => simp [hw] at hs; subst hs; simp [hmem, write_grow e hw, grow]
        · next hi => simp at hs; subst hs; rfl
      · next h2 =>
        rw [if_neg h2]
        cases hr : CsvParser.reset p with
        | none => simp [hr] at hs
        | some r => simp [hr] at hs; subst hs; simp only [reset_grow e hr, Option.bind_eq_bind, Option.bind_some]; simp [grow]

theorem loop_grow (e : List (Option UInt8)) : ∀ (s : List UInt8) (p q : P), loop p s = some (.ok q) → loop (grow e p) s = some (.ok (grow e q)) := by
  intro s
  induction s with
  | nil => intro p q h; simp only [loop, Option.some.injEq, Except.ok.injEq] at h ⊢; rw [h]
  | cons c s ih =>
    intro p q h
    rw [loop] at h ⊢
    cases hs : step p c with
    | none => simp [hs] at h
    | some r =>
      cases r with
      | error x => simp [hs] at h
      | ok p' =>
        simp only [hs, Option.bind_eq_bind, Option.bind_some] at h
        rw [step_grow e hs]
        exact ih p' q h

/-- A quote and a blank after which the text is a list: the quote closes a field. -/
theorem closing {q q1 p : P} {b : UInt8} (hbl : blank b = true) (hb0 : b ≠ 44) (hb1 : b ≠ 34) (hq : Inv q) (h1 : step q 34 = some (.ok q1))
    (h2 : step q1 b = some (.ok p)) {l : List (List UInt8)} (h3 : endOf p = some (.ok l)) : p.st = .spaceAfterQuote ∧ ∃ i, p.sn = some i := by
  have wq : ∀ {x : P}, CsvParser.put x b .withQuote = some p → False := by
    intro x hx
    have : p.st = .withQuote := by
      unfold CsvParser.put at hx
      cases hs : x.sn with
      | none => simp [hs] at hx
      | some i =>
        cases hw : CMem.write x.mem i (some b) with
        | none => simp [hs, hw] at hx
        | some m => simp [hs, hw] at hx; rw [← hx]
    simp [endOf, this] at h3
  have lead : q1.st = .leadingQuote → False := by
    intro e
    simp only [step, e, hb1, if_false] at h2
    cases hp : CsvParser.put { q1 with sn := some 0 } b .withQuote with
    | none => simp [e] at hp; simp [hp] at h2
    | some r =>
      rw [e] at hp; rw [hp] at h2
      simp at h2
      subst h2
      exact wq hp
  have quoted : (CsvParser.reset q).bind (fun p => some (Except.ok { p with sn := none, st := .leadingQuote })) = some (.ok q1 : Except Err P) → False := by
    intro h
    cases hr : CsvParser.reset q with
    | none => simp [hr] at h
    | some r => simp [hr] at h; exact lead (by rw [← h])
  have bad : q1.st = .error → False := by
    intro e
    simp [step, e] at h2
  have k1 : ¬ blank 34 = true := by decide
  cases e : q.st with
  | newLine => simp [step, e, k1] at h1; exact (quoted h1).elim
  | preStartSpace => simp [step, e, k1] at h1; exact (quoted h1).elim
  | separator => simp [step, e, k1] at h1; exact (quoted h1).elim
  | noQuote =>
    simp [step, e] at h1
    cases hr : CsvParser.reset q with
    | none => simp [hr] at h1
    | some r => simp [hr] at h1; exact (bad (by rw [← h1])).elim
  | leadingQuote =>
    simp [step, e] at h1
    subst h1
    simp [step, hb0, hbl] at h2
    subst h2
    exact ⟨rfl, 0, rfl⟩
  | internalQuote =>
    simp [step, e, k1] at h1
    cases hp : CsvParser.put q 34 .withQuote with
    | none => simp [hp] at h1
    | some r =>
      have hrst : r.st = .withQuote := by
        unfold CsvParser.put at hp
        cases hs : q.sn with
        | none => simp [hs] at hp
        | some i =>
          cases hw : CMem.write q.mem i (some 34) with
          | none => simp [hs, hw] at hp
          | some m => simp [hs, hw] at hp; rw [← hp]
      simp [hp] at h1
      subst h1
      simp [step, hrst, hb1] at h2
      exact (wq h2).elim
  | withQuote =>
    simp [step, e] at h1
    subst h1
    simp [step, hb0, hbl] at h2
    subst h2
    exact ⟨rfl, hq.b (.inl e)⟩
  | spaceAfterQuote =>
    simp [step, e, k1] at h1
    cases hr : CsvParser.reset q with
    | none => simp [hr] at h1
    | some r => simp [hr] at h1; exact (bad (by rw [← h1])).elim
  | error => simp [step, e] at h1

/-- C61, a finding for a class of texts. Let a text begin with a part that the parser takes apart on its own, into the fields `fs` and a last one, and that ends in a
quote and one blank. If the last field is not empty and longer than each one before it, and a separator follows, then the parser reads memory that it has not written
or that is not its own, whatever comes behind. -/
theorem C61_uninitialised_read_negated (a : List UInt8) (b : UInt8) (rest : List UInt8) (fs : List (List UInt8)) (last : List UInt8)
    (hb : b = 32 ∨ b = 9 ∨ b = 10 ∨ b = 13) (h0 : 0 ∉ a) (hp : parse (a ++ [34, b]) = some (some (fs ++ [last]))) (hne : last ≠ [])
    (hlong : ∀ f ∈ fs, f.length < last.length) : parse (a ++ [34, b] ++ [44] ++ rest) = none := by
  have hbl : blank b = true := by rcases hb with rfl | rfl | rfl | rfl <;> rfl
  have hb0 : b ≠ 44 := by rcases hb with rfl | rfl | rfl | rfl <;> decide
  have hb1 : b ≠ 34 := by rcases hb with rfl | rfl | rfl | rfl <;> decide
  have hbz : b ≠ 0 := by rcases hb with rfl | rfl | rfl | rfl <;> decide
  have hnew : ∀ n, CMem.write (List.replicate (n + 1) (none : Option UInt8)) 0 (some 0) = some (some 0 :: List.replicate n none) := by
    intro n; rw [CMem.write_eq (by simp)]; rfl
  have hinv : ∀ n, Inv ⟨some 0 :: List.replicate n none, some 0, .newLine, []⟩ := by
    intro n
    refine ⟨by intro i hi; cases hi; intro j hj; omega, by simp, by simp, .inl ?_⟩
    intro i hi hz
    obtain ⟨j, rfl⟩ : ∃ j, i = j + 1 := ⟨i - 1, by omega⟩
    rw [List.getElem?_cons_succ, List.getElem?_replicate] at hz
    split at hz <;> cases hz
  obtain ⟨n, hn⟩ : ∃ n, n = (a ++ [34, b]).length := ⟨_, rfl⟩
  obtain ⟨N, hN⟩ : ∃ N, N = (a ++ [34, b] ++ [44] ++ rest).length := ⟨_, rfl⟩
  obtain ⟨k, hk⟩ : ∃ k, N = n + k := ⟨1 + rest.length, by rw [hN, hn]; simp; omega⟩
  simp only [parse, launch, ← hn, hnew, Option.bind_eq_bind, Option.bind_some] at hp
  -- the run on the beginning alone
  cases hl : loop ⟨some 0 :: List.replicate n none, some 0, .newLine, []⟩ (a ++ [34, b]) with
  | none => simp [hl] at hp
  | some r =>
    cases r with
    | error x => simp [hl] at hp
    | ok p =>
      simp only [hl, Option.bind_some] at hp
      cases he : endOf p with
      | none => simp [he] at hp
      | some r2 =>
        cases r2 with
        | error x => simp [he] at hp
        | ok l =>
          simp only [he, Option.bind_some, Option.some.injEq] at hp
          subst hp
          have hp' : p.st = .spaceAfterQuote ∧ ∃ i, p.sn = some i := by
            rw [loop_append] at hl
            cases ha : loop ⟨some 0 :: List.replicate n none, some 0, .newLine, []⟩ a with
            | none => simp [ha] at hl
            | some r =>
              cases r with
              | error x => simp [ha] at hl
              | ok q =>
                simp only [ha, Option.bind_some, loop, Option.bind_eq_bind] at hl
                have hq := loop_inv a _ q h0 (.inr (hinv n)) ha
                cases h1 : step q 34 with
                | none => simp [h1] at hl
                | some r =>
                  cases r with
                  | error x => simp [h1] at hl
                  | ok q1 =>
                    simp only [h1, Option.bind_some] at hl
                    cases h2 : step q1 b with
                    | none => simp [h2] at hl
                    | some r =>
                      cases r with
                      | error x => simp [h2] at hl
                      | ok p2 =>
                        simp only [h2, Option.bind_some, Option.some.injEq, Except.ok.injEq] at hl
                        subst hl
                        refine closing hbl hb0 hb1 (hq.resolve_left ?_) h1 h2 he
                        intro e; simp [step, e] at h1
          obtain ⟨hst, i, hi⟩ := hp'
          -- the run on the whole text
          have hbig := loop_grow (List.replicate k none) _ _ _ hl
          have hstart : grow (List.replicate k none) ⟨some 0 :: List.replicate n none, some 0, .newLine, []⟩ =
              ⟨some 0 :: List.replicate N none, some 0, .newLine, []⟩ := by
            simp [grow, hk]
          rw [hstart] at hbig
          have hI := loop_inv (a ++ [34, b]) _ _ (by simp [h0, hbz.symm]) (.inr (hinv N)) hbig
          have hI : Inv (grow (List.replicate k none) p) := hI.resolve_left (by simp [grow, hst])
          -- the last field
          have hout : p.out = fs ∧ last.length ≤ i := by
            simp only [endOf, hst, hi, Option.bind_eq_bind] at he
            cases hw : CMem.write p.mem i (some 0) with
            | none => simp [hw] at he
            | some m =>
              cases hf : CMem.str m with
              | none => simp [hw, hf] at he
              | some f =>
                cases hw2 : CMem.write m 0 (some 0) with
                | none => simp [hw, hf, hw2] at he
                | some m2 =>
                  simp [hw, hf, hw2] at he
                  obtain ⟨e1, rfl⟩ := he
                  refine ⟨e1, ?_⟩
                  have hm := write_set hw
                  subst hm
                  rcases Nat.lt_or_ge i f.length with hlt | hge
                  · exfalso
                    obtain ⟨r3, hr3⟩ := str_len _ _ hf
                    have hz := congrArg (fun l => l[i]?) hr3
                    have hilt : i < p.mem.length := by
                      have := congrArg List.length hr3
                      simp at this; omega
                    simp only [List.getElem?_set_self hilt] at hz
                    rw [List.getElem?_append_left (by simpa using hlt), List.getElem?_map, List.getElem?_eq_getElem hlt] at hz
                    simp at hz
                    exact str_nz _ _ hf (hz ▸ List.getElem_mem hlt)
                  · exact hge
          have hi0 : 0 < i := by
            have := List.length_pos_iff.2 hne
            omega
          have hd : Z (p.mem ++ List.replicate k none) p.out := hI.d.resolve_right (by rintro ⟨_, h, _⟩; simp [grow, hi] at h)
          have ha := hI.a i (by simp [grow, hi])
          simp only [parse, launch, ← hN, hnew, Option.bind_eq_bind, Option.bind_some]
          rw [List.append_assoc (a ++ [34, b]), loop_append, hbig]
          simp only [Option.bind_some, List.cons_append, List.nil_append, loop]
          have hs : step (grow (List.replicate k none) p) 44 = none := by
            have hst' : (grow (List.replicate k none) p).st = .spaceAfterQuote := hst
            simp only [step, hst', if_true]
            cases hf : CMem.str (grow (List.replicate k none) p).mem with
            | none => rfl
            | some g =>
              exfalso
              have h1 := ha.str hf
              obtain ⟨f, hfm, hfl⟩ := hd g.length (by omega) (str_zero hf)
              have := hlong f (hout.1 ▸ hfm)
              omega
          rw [hs]
          rfl

/-- The text of the finding above, one with a longer field behind a shorter one, and one to which the theorem does not apply. -/
example : parse ([34, 120] ++ [34, 32]) = some (some ([] ++ [[120]])) ∧ parse ([34, 120] ++ [34, 32] ++ [44] ++ [121]) = none := by decide
example : parse ([97, 44, 34, 120, 44] ++ [34, 9]) = some (some ([[97]] ++ [[120, 44]])) ∧ parse ([97, 44, 34, 120, 44] ++ [34, 9] ++ [44] ++ []) = none := by decide
example : parse ([97, 98, 44, 34, 120] ++ [34, 32]) = some (some ([[97, 98]] ++ [[120]])) ∧
    parse ([97, 98, 44, 34, 120] ++ [34, 32] ++ [44] ++ []) = some (some [[97, 98], [120, 98], [120, 98]]) := by decide

end CsvParser
