import Verif.Lemmas.JsonLoose
/-! # JSON: exactly what the parser accepts -/
open JsonSpec Json

namespace Json

theorem rd_cons {s : Bytes} {p : Nat} {c : UInt8} (h : rd s p = some c) (hc : c ≠ 0) : s.drop p = c :: s.drop (p + 1) ∧ p < s.length := by
  rw [rd] at h
  by_cases hp : p < s.length
  · rw [List.getElem?_append_left hp] at h
    obtain ⟨_, h2⟩ := List.getElem?_eq_some_iff.1 h
    exact ⟨by rw [List.drop_eq_getElem_cons hp, h2], hp⟩
  · rw [List.getElem?_append_right (by omega)] at h
    have : p - s.length = 0 := by
      have := (List.getElem?_eq_some_iff.1 h).1; simp at this; omega
    rw [this] at h; simp at h; exact absurd h.symm hc

theorem drop_cons_lt {s : Bytes} {p : Nat} {c : UInt8} {r : Bytes} (h : s.drop p = c :: r) : p < s.length ∧ s.drop (p + 1) = r := by
  have := congrArg List.length h
  simp at this
  exact ⟨by omega, by rw [← List.drop_drop, h]; simp⟩

/-! ## Literals -/

theorem literalAt_sound {s : Bytes} {p : Nat} {lit : Bytes} (h0 : 0 ∉ s) (hl : lit ≠ []) (h : literalAt s p lit = some true) :
    s.drop p = lit ++ s.drop (p + lit.length) ∧ Follow (s.drop (p + lit.length)) := by
  rw [literalAt] at h
  split at h
  · split at h
    · rename_i h2
      have e : s.drop p = lit ++ s.drop (p + lit.length) := by
        conv => lhs; rw [← List.take_append_drop lit.length (s.drop p), h2, List.drop_drop]
      refine ⟨e, ?_⟩
      intro c r hr
      have hrd := rd_head hr
      rw [hrd] at h
      simp at h
      rcases h with h | h
      · exact h
      · subst h
        exact absurd (List.mem_of_mem_drop (by rw [hr]; simp)) h0
    · cases h
  · cases h

theorem wordAt_sound {s : Bytes} {p : Nat} {e : Elem} {q : Nat} (h0 : 0 ∉ s) (h : wordAt s p = some (.ok (e, q))) :
    ∃ lit r d, s.drop p = lit ++ r ∧ lit ≠ [] ∧ q = p + lit.length - 1 ∧ doc e = d ∧ Reads (lit ++ r) r d ∧
      ∃ b l, lit = b ++ [l] ∧ l ≠ 44 ∧ l ≠ 91 ∧ l ≠ 58 := by
  rw [wordAt, Option.bind_eq_some_iff] at h
  obtain ⟨b, hb, h⟩ := h
  cases b with
  | true =>
    simp only [if_true] at h
    cases h
    obtain ⟨g1, g2⟩ := literalAt_sound h0 (by decide) hb
    exact ⟨litTrue, _, .bool true, g1, by decide, rfl, by simp [doc, boolCreate, litTrue], .true ((atSep_iff _).2 g2), [116, 114, 117], 101, rfl, by decide⟩
  | false =>
    simp only [Bool.false_eq_true, if_false] at h
    rw [Option.bind_eq_some_iff] at h
    obtain ⟨b, hb, h⟩ := h
    cases b with
    | true =>
      simp only [if_true] at h
      cases h
      obtain ⟨g1, g2⟩ := literalAt_sound h0 (by decide) hb
      exact ⟨litFalse, _, .bool false, g1, by decide, rfl, by simp [doc, boolCreate, litFalse], .false ((atSep_iff _).2 g2), [102, 97, 108, 115], 101, rfl, by decide⟩
    | false =>
      simp only [Bool.false_eq_true, if_false] at h
      rw [Option.bind_eq_some_iff] at h
      obtain ⟨b, hb, h⟩ := h
      cases b with
      | true =>
        simp only [if_true] at h
        cases h
        obtain ⟨g1, g2⟩ := literalAt_sound h0 (by decide) hb
        exact ⟨litNull, _, .null, g1, by decide, rfl, by simp [doc, nullCreate], .null ((atSep_iff _).2 g2), [110, 117, 108], 108, rfl, by decide⟩
      | false => cases h

/-! ## Unquoted keys -/

theorem backWs_key {s pre bl post : Bytes} (hs : s = pre ++ bl ++ post) (hb : ∀ x ∈ bl, isWs x = true) {b : Bytes} {c : UInt8} (hp : pre = b ++ [c])
    (hc : isWs c = false) : ∀ k, k ≤ bl.length → backWs s (pre.length + k) = pre.length := by
  intro k
  induction k with
  | zero =>
    intro _
    have hl : pre.length = b.length + 1 := by rw [hp]; simp
    have hg : s[b.length]? = some c := by
      rw [hs, hp, List.append_assoc, List.getElem?_append_left (by simp), List.getElem?_append_right (by simp)]; simp
    rw [Nat.add_zero, hl, backWs, hg]; simp [hc]
  | succ k ih =>
    intro hk
    have hg : s[pre.length + k]? = some bl[k] := by
      rw [hs, List.append_assoc, List.getElem?_append_right (by omega), List.getElem?_append_left (by omega)]
      simp
    rw [show pre.length + (k + 1) = (pre.length + k) + 1 by omega, backWs, hg]
    simp only [Option.any_some, hb _ (List.getElem_mem _), if_true]
    exact ih (by omega)

theorem takeWhile_split (f : UInt8 → Bool) (l : Bytes) : l = l.takeWhile f ++ l.dropWhile f := (List.takeWhile_append_dropWhile).symm

theorem mem_takeWhile {f : UInt8 → Bool} {l : Bytes} {x : UInt8} (h : x ∈ l.takeWhile f) : f x = true := by
  induction l with
  | nil => cases h
  | cons c l ih =>
    rw [List.takeWhile_cons] at h
    split at h
    · rcases List.mem_cons.1 h with rfl | h
      · assumption
      · exact ih h
    · cases h

theorem key_text {s : Bytes} {p : Nat} {c : UInt8} {w bl i : Bytes} (hs : s.drop p = c :: (w ++ bl ++ 58 :: i)) (hc : IsWord c)
    (hw : ∀ x ∈ w, IsWord x ∨ x = 45) (hb : ∀ x ∈ bl, IsBlank x) :
    (s.drop p).take (backWs s (p + 1 + w.length + bl.length) - p) = c :: w := by
  obtain ⟨hp, _⟩ := drop_cons_lt hs
  have hpl : (s.take p).length = p := by simp; omega
  have hss : s = (s.take p ++ c :: w) ++ bl ++ 58 :: i := by
    conv => lhs; rw [← List.take_append_drop p s, hs]
    simp
  have hlen : (s.take p ++ c :: w).length = p + 1 + w.length := by rw [List.length_append, hpl, List.length_cons]; omega
  have nb : ∀ x, IsWord x ∨ x = 45 → isWs x = false := by
    intro x hx
    rcases hx with hx | rfl
    · rw [← isWord_iff] at hx
      exact Str.byte_all (P := fun x => isWord x = true → isWs x = false) (by decide +kernel) x hx
    · rfl
  obtain ⟨b, l, hbl, hl⟩ : ∃ b l, s.take p ++ c :: w = b ++ [l] ∧ isWs l = false := by
    rcases List.eq_nil_or_concat w with rfl | ⟨w', y, rfl⟩
    · exact ⟨s.take p, c, rfl, nb c (.inl hc)⟩
    · exact ⟨s.take p ++ c :: w', y, by simp, nb y (hw y (by simp))⟩
  have := backWs_key hss (fun x hx => (isWs_iff x).2 (hb x hx)) hbl hl bl.length (Nat.le_refl _)
  rw [hlen] at this
  rw [this, hs, show p + 1 + w.length - p = (c :: w).length by simp; omega,
    show c :: (w ++ bl ++ 58 :: i) = (c :: w) ++ (bl ++ 58 :: i) by simp, List.take_left]

theorem unquotedKey_complete {s : Bytes} {p : Nat} {c : UInt8} {w bl i : Bytes} (hs : s.drop p = c :: (w ++ bl ++ 58 :: i)) (hc : IsWord c)
    (hw : ∀ x ∈ w, IsWord x ∨ x = 45) (hb : ∀ x ∈ bl, IsBlank x) : unquotedKey s p = some (p + 1 + w.length + bl.length) := by
  obtain ⟨hp, h1⟩ := drop_cons_lt hs
  have hg : s[p]? = some c := by
    have : (s.drop p)[0]? = some c := by rw [hs]; rfl
    simpa using this
  have hstop : ∀ x r, bl ++ 58 :: i = x :: r → (x == 45 || isWord x) = false := by
    intro x r e
    cases bl with
    | nil => cases e; rfl
    | cons y bl =>
      cases e
      rcases hb x (by simp) with rfl | rfl | rfl | rfl <;> rfl
  have e1 : skip (fun c => c == 45 || isWord c) s (p + 1) = p + 1 + w.length := by
    rw [skip, h1, List.append_assoc, List.takeWhile_append_of_pos]
    · cases hx : bl ++ 58 :: i with
      | nil => simp
      | cons x r => rw [List.takeWhile_cons, hstop x r hx]; simp
    · intro x hx
      rcases hw x hx with h | h
      · simp [(isWord_iff x).2 h]
      · simp [h]
  have h2 : s.drop (p + 1 + w.length) = bl ++ 58 :: i := by rw [← List.drop_drop, h1, List.append_assoc, List.drop_left]
  have e2 : skip isWs s (p + 1 + w.length) = p + 1 + w.length + bl.length := by
    rw [skip, h2, List.takeWhile_append_of_pos (fun x hx => (isWs_iff x).2 (hb x hx)), List.takeWhile_cons]
    simp [isWs]
  have h3 : s.drop (p + 1 + w.length + bl.length) = 58 :: i := by rw [← List.drop_drop, h2, List.drop_left]
  have h4 : s[p + 1 + w.length + bl.length]? = some 58 := by
    have : (s.drop (p + 1 + w.length + bl.length))[0]? = some 58 := by rw [h3]; rfl
    simpa using this
  rw [unquotedKey, hg]
  simp only [(isWord_iff c).2 hc, if_true, e1, e2, h4]

theorem unquotedKey_sound {s : Bytes} {p colon : Nat} (h : unquotedKey s p = some colon) :
    ∃ c w bl, s.drop p = c :: (w ++ bl ++ 58 :: s.drop (colon + 1)) ∧ IsWord c ∧ (∀ x ∈ w, IsWord x ∨ x = 45) ∧ (∀ x ∈ bl, IsBlank x) ∧
      colon = p + 1 + w.length + bl.length := by
  rw [unquotedKey] at h
  cases hg : s[p]? with
  | none => rw [hg] at h; cases h
  | some c =>
    rw [hg] at h
    simp only at h
    split at h
    · rename_i hc
      split at h
      · rename_i h58
        cases h
        have hp := (List.getElem?_eq_some_iff.1 hg)
        have h0 : s.drop p = c :: s.drop (p + 1) := by rw [List.drop_eq_getElem_cons hp.1, hp.2]
        rw [skip, skip] at h58
        have s1 := takeWhile_split (fun c => c == 45 || isWord c) (s.drop (p + 1))
        have d1 : s.drop (p + 1 + ((s.drop (p + 1)).takeWhile (fun c => c == 45 || isWord c)).length) = (s.drop (p + 1)).dropWhile (fun c => c == 45 || isWord c) := by
          conv => lhs; rw [← List.drop_drop]
          conv => lhs; arg 2; rw [s1]
          exact List.drop_left
        rw [d1] at h58
        rw [skip, skip, d1]
        have s2 := takeWhile_split isWs ((s.drop (p + 1)).dropWhile (fun c => c == 45 || isWord c))
        refine ⟨c, _, _, ?_, (isWord_iff c).1 hc, ?_, ?_, rfl⟩
        · rw [h0]
          congr 1
          have h58' := List.getElem?_eq_some_iff.1 h58
          have h3 : s.drop (p + 1 + ((s.drop (p + 1)).takeWhile (fun c => c == 45 || isWord c)).length +
              (((s.drop (p + 1)).dropWhile (fun c => c == 45 || isWord c)).takeWhile isWs).length) =
              ((s.drop (p + 1)).dropWhile (fun c => c == 45 || isWord c)).dropWhile isWs := by
            rw [← List.drop_drop, d1]
            conv => lhs; arg 2; rw [s2]
            exact List.drop_left
          rw [List.drop_eq_getElem_cons h58'.1, h58'.2] at h3
          rw [List.append_assoc, h3, ← s2, ← s1]
        · intro x hx
          have := mem_takeWhile hx
          simp at this
          rcases this with h | h
          · exact .inr h
          · exact .inl ((isWord_iff x).1 h)
        · intro x hx
          exact (isWs_iff x).1 (mem_takeWhile hx)
      · cases h
    · cases h

/-! ## Soundness -/

def placeOf (prev : UInt8) : Place := if prev = 91 then .start else if prev = 44 then .comma else .value
theorem placeOf_value {l : UInt8} (h1 : l ≠ 91) (h2 : l ≠ 44) : placeOf l = .value := by simp [placeOf, h1, h2]

/-- A value that starts at `p` ends at `q`. -/
structure Out (s : Bytes) (p q : Nat) : Prop where
  le : p ≤ q
  lt : q < s.length
  last : ∃ l, rd s q = some l ∧ l ≠ 44 ∧ l ≠ 91 ∧ l ≠ 58

theorem out_of {s t r : Bytes} {p q : Nat} (hs : s.drop p = t ++ r) (hq : q = p + t.length - 1) {b : Bytes} {l : UInt8} (ht : t = b ++ [l])
    (hl : l ≠ 44 ∧ l ≠ 91 ∧ l ≠ 58) : Out s p q ∧ s.drop (q + 1) = r := by
  have htl : t.length = b.length + 1 := by rw [ht]; simp
  have hlen := drop_len hs (by rw [ht]; simp)
  have hrd := rd_at hs (i := b.length) (by omega)
  rw [show t[b.length]? = some l by rw [ht]; simp] at hrd
  refine ⟨⟨by omega, by omega, l, by rw [hq, htl]; exact hrd, hl⟩, ?_⟩
  rw [hq, show p + t.length - 1 + 1 = p + t.length by omega]
  exact drop_more hs

theorem scalarAt_sound {s : Bytes} (h0 : 0 ∉ s) {p : Nat} {c : UInt8} {e : Elem} {q : Nat} (h : scalarAt s p c = some (.ok (e, q))) :
    Out s p q ∧ Reads (s.drop p) (s.drop (q + 1)) (doc e) := by
  rw [scalarAt] at h
  split at h
  · obtain ⟨t, post, g1, g2, g3, g4, g5⟩ := numLoop_sound _ p {} [] (mem_drop_zero h0 p) numInv_init e q h
    rw [List.nil_append] at g3 g5
    obtain ⟨b, l, g6, g7⟩ := g3.2
    have hl : l ≠ 44 ∧ l ≠ 91 ∧ l ≠ 58 := by
      have := dig_facts l g7; exact ⟨this.2.2.2.2.2.2.2.2.1, this.2.2.2.2.2.2.2.2.2.1, this.2.2.2.2.2.2.2.2.2.2.1⟩
    obtain ⟨o, d⟩ := out_of g1 g4 g6 hl
    refine ⟨o, ?_⟩
    rw [d, g1, g5]
    by_cases h46 : 46 ∈ t
    · rw [if_pos h46]; exact .real g3 h46 ((atSep_iff _).2 g2)
    · rw [if_neg h46]; exact .integer g3 h46 ((atSep_iff _).2 g2)
  · obtain ⟨lit, r, d, g1, _, g3, g4, g5, b, l, g6, g7⟩ := wordAt_sound h0 h
    obtain ⟨o, dd⟩ := out_of g1 g3 g6 g7
    refine ⟨o, ?_⟩
    rw [dd, g1, g4]; exact g5

theorem andThen_ok {α β : Type} {x : Option (Except Err (α × Nat))} {f : α → Nat → Option (Except Err β)} {y : β} (h : andThen x f = some (.ok y)) :
    ∃ a q, x = some (.ok (a, q)) ∧ f a q = some (.ok y) := by
  match x, h with
  | some (.ok (a, q)), h => exact ⟨a, q, rfl, h⟩
  | some (.error e), h => cases h
  | none, h => cases h

theorem stringAt_sound {s : Bytes} {p : Nat} {v : Bytes} {q : Nat} {r : Bytes} (hs : s.drop p = 34 :: r) (h : stringAt s p = some (.ok (v, q))) :
    ∃ t, s.drop p = 34 :: (t ++ 34 :: s.drop (q + 1)) ∧ LooseChars t v ∧ p < q ∧ q < s.length ∧ rd s q = some 34 := by
  obtain ⟨hp, h1⟩ := drop_cons_lt hs
  rw [stringAt] at h
  obtain ⟨t, u, post, g1, g2, g3, g4⟩ := strLoop_sound _ _ _ _ (Nat.le_refl _) v q h
  rw [List.nil_append] at g3; subst g3
  have hq : s.drop q = 34 :: post := by rw [g4]; exact drop_more g1
  obtain ⟨h3, h4⟩ := drop_cons_lt hq
  exact ⟨t, by rw [hs, ← h1, g1, h4], g2, by omega, h3, rd_head hq⟩

theorem find_cons_or (ms : List (Bytes × Doc)) (k : Bytes) (d : Doc) (k' : Bytes) (o : Option Doc) :
    ((ms.reverse.find? fun x => x.1 = k').map Prod.snd).or (if k' = k then some d else o) =
    ((((k, d) :: ms).reverse.find? fun x => x.1 = k').map Prod.snd).or o := by
  rw [List.reverse_cons, List.find?_append]
  cases hf : ms.reverse.find? fun x => x.1 = k' with
  | some y => simp
  | none =>
    by_cases h : k' = k
    · subst h; simp
    · simp [h, Ne.symm h]

theorem docs_append (a b : List Elem) : docs (a ++ b) = docs a ++ docs b := by simp [docs_eq]

theorem loops_sound {s : Bytes} (h0 : 0 ∉ s) : ∀ fuel,
    (∀ p c r, s.drop p = c :: r → ∀ e q, valueAt fuel s p c = some (.ok (e, q)) → Out s p q ∧ Reads (s.drop p) (s.drop (q + 1)) (doc e)) ∧
    (∀ p prev kids e q, arrLoop fuel s p prev kids = some (.ok (e, q)) → p ≤ q ∧ q < s.length ∧ rd s q = some 93 ∧
      ∃ kids' ds, e = .cont none .array kids' ∧ docs kids' = docs kids ++ ds ∧ ReadsItems (placeOf prev) (s.drop p) (s.drop (q + 1)) ds) ∧
    (∀ p prev name kids e q, (keys kids).Nodup → objLoop fuel s p prev name kids = some (.ok (e, q)) → p ≤ q ∧ q < s.length ∧ rd s q = some 125 ∧
      ∃ kids' ms, e = .cont none .object kids' ∧ (∀ k, members kids' k = ((ms.reverse.find? fun x => x.1 = k).map Prod.snd).or (members kids k)) ∧
        (name = none → prev ≠ 58 → ReadsMembers (prev == 44) (s.drop p) (s.drop (q + 1)) ms) ∧
        (∀ k, name = some k → prev ≠ 44 → ReadsMember k (prev == 58) (s.drop p) (s.drop (q + 1)) ms)) := by
  intro fuel
  induction fuel with
  | zero =>
    refine ⟨?_, ?_, ?_⟩
    · intro p c r _ e q h; rw [valueAt] at h; cases h
    · intro p prev kids e q h; rw [arrLoop] at h; cases h
    · intro p prev name kids e q _ h; rw [objLoop] at h; cases h
  | succ fuel ih =>
    obtain ⟨ihv, iha, iho⟩ := ih
    refine ⟨?_, ?_, ?_⟩
    · intro p c r hs e q h
      obtain ⟨hp, h1⟩ := drop_cons_lt hs
      rw [valueAt] at h
      split at h
      · rename_i hc
        subst hc
        rw [stringValueAt] at h
        obtain ⟨v, q', g1, g2⟩ := andThen_ok h
        obtain ⟨t, t1, t2, t3, t4, t5⟩ := stringAt_sound hs g1
        cases g2
        refine ⟨⟨by omega, t4, 34, t5, by decide⟩, ?_⟩
        rw [t1]
        exact .string t2 (secondPass_decode _ v (Nat.le_refl _))
      split at h
      · rename_i hc
        subst hc
        obtain ⟨g1, g2, g3, kids', ds, rfl, g5, g6⟩ := iha _ _ _ e q h
        refine ⟨⟨by omega, g2, 93, g3, by decide⟩, ?_⟩
        rw [hs, ← h1, doc, g5]
        exact .array g6
      split at h
      · rename_i hc
        subst hc
        obtain ⟨g1, g2, g3, kids', ms, rfl, g5, g6, _⟩ := iho _ _ _ _ e q (by simp [keys]) h
        refine ⟨⟨by omega, g2, 125, g3, by decide⟩, ?_⟩
        rw [hs, ← h1, doc]
        have : members kids' = fun k => (ms.reverse.find? fun x => x.1 = k).map Prod.snd := by
          funext k; rw [g5]; simp [members]
        rw [this]
        exact .object (g6 rfl (by decide))
      · exact scalarAt_sound h0 h
    · intro p prev kids e q h
      rw [arrLoop] at h
      cases hc : rd s p with
      | none => rw [hc] at h; cases h
      | some c =>
        rw [hc] at h
        simp only at h
        split at h
        · cases h
        rename_i hc0
        obtain ⟨hd, hp⟩ := rd_cons hc hc0
        rw [hd]
        split at h
        · rename_i hw
          obtain ⟨g1, g2, g3, kids', ds, g4, g5, g6⟩ := iha _ _ _ e q h
          exact ⟨by omega, g2, g3, kids', ds, g4, g5, .blank ((isWs_iff c).1 hw) g6⟩
        split at h
        · rename_i hc44
          subst hc44
          split at h
          · cases h
          · rename_i hn
            simp only [not_or] at hn
            obtain ⟨g1, g2, g3, kids', ds, g4, g5, g6⟩ := iha _ _ _ e q h
            refine ⟨by omega, g2, g3, kids', ds, g4, g5, ?_⟩
            rw [placeOf_value hn.2 hn.1]
            exact .comma g6
        split at h
        · rename_i hc93
          subst hc93
          cases h
          exact ⟨Nat.le_refl _, hp, hc, kids, [], rfl, by simp, .close⟩
        split at h
        · cases h
        · rename_i hcont
          obtain ⟨e1, q1, g1, g2⟩ := andThen_ok h
          obtain ⟨o, rr⟩ := ihv p c _ hd e1 q1 g1
          obtain ⟨l, l1, l2, l3, l4⟩ := o.last
          rw [l1, Option.bind_some] at g2
          obtain ⟨g3, g4, g5, kids', ds, g6, g7, g8⟩ := iha _ _ _ e q g2
          rw [placeOf_value l3 l2] at g8
          have := o.le
          refine ⟨by omega, g4, g5, kids', doc e1 :: ds, g6, ?_, ?_⟩
          · rw [g7, docs_append]; simp [docs]
          · rw [hd] at rr
            refine .item rr ?_ g8
            intro hv c' i' e
            cases e
            have hv' : prev ≠ 91 ∧ prev ≠ 44 := by
              rw [placeOf] at hv
              split at hv
              · cases hv
              · split at hv
                · cases hv
                · rename_i a b; exact ⟨a, b⟩
            constructor
            · intro hc; exact hcont ⟨.inl hc, hv'⟩
            · intro hc; exact hcont ⟨.inr hc, hv'⟩
    · intro p prev name kids e q hn h
      rw [objLoop] at h
      cases hc : rd s p with
      | none => rw [hc] at h; cases h
      | some c =>
        rw [hc] at h
        simp only at h
        split at h
        · cases h
        rename_i hc0
        obtain ⟨hd, hp⟩ := rd_cons hc hc0
        rw [hd]
        split at h
        · rename_i hw
          have hw := (isWs_iff c).1 hw
          obtain ⟨g1, g2, g3, kids', ms, g4, g5, g6, g7⟩ := iho _ _ _ _ e q hn h
          exact ⟨by omega, g2, g3, kids', ms, g4, g5, fun a b => .blank hw (g6 a b), fun k a b => .blank hw (g7 k a b)⟩
        split at h
        · rename_i hc58
          subst hc58
          split at h
          · cases h
          · rename_i hx
            simp only [not_or] at hx
            obtain ⟨g1, g2, g3, kids', ms, g4, g5, g6, g7⟩ := iho _ _ _ _ e q hn h
            refine ⟨by omega, g2, g3, kids', ms, g4, g5, fun a => absurd a hx.1, fun k a b => ?_⟩
            rw [show (prev == 58) = false by simp [hx.2.1]]
            exact .colon (g7 k a (by decide))
        split at h
        · rename_i hc44
          subst hc44
          split at h
          · cases h
          · rename_i hx
            have hx1 : name = none := by
              cases name with
              | none => rfl
              | some k => exact absurd (.inl (by simp)) hx
            simp only [not_or] at hx
            obtain ⟨g1, g2, g3, kids', ms, g4, g5, g6, g7⟩ := iho _ _ _ _ e q hn h
            refine ⟨by omega, g2, g3, kids', ms, g4, g5, fun a b => ?_, fun k a b => ?_⟩
            · rw [show (prev == 44) = false by simp [hx.2.2]]
              exact .comma (g6 a (by decide))
            · rw [hx1] at a; cases a
        split at h
        · rename_i hc125
          subst hc125
          split at h
          · cases h
          · rename_i hx
            have hx1 : name = none := by
              cases name with
              | none => rfl
              | some k => exact absurd (by simp) hx
            cases h
            refine ⟨Nat.le_refl _, hp, hc, kids, [], rfl, by simp, fun _ _ => .close, fun k a => ?_⟩
            rw [hx1] at a; cases a
        cases name with
        | some k =>
          obtain ⟨e1, q1, g1, g2⟩ := andThen_ok h
          obtain ⟨o, rr⟩ := ihv p c _ hd e1 q1 g1
          obtain ⟨l, l1, l2, l3, l4⟩ := o.last
          rw [l1, Option.bind_some] at g2
          obtain ⟨g3, g4, g5, kids', ms, g6, g7, g8, _⟩ := iho _ _ _ _ e q (nodup_append k e1 hn) g2
          have := o.le
          refine ⟨by omega, g4, g5, kids', (k, doc e1) :: ms, g6, ?_, (fun a => by cases a), ?_⟩
          · intro k'
            rw [g7, members_append k e1 hn, find_cons_or]
          · intro k' a b
            cases a
            have g8 := g8 rfl l4
            rw [show (l == 44) = false by simp [l2]] at g8
            rw [hd] at rr
            exact .value rr g8
        | none =>
          simp only at h
          split at h
          · rename_i hc34
            subst hc34
            obtain ⟨k, q1, g1, g2⟩ := andThen_ok h
            obtain ⟨t, t1, t2, t3, t4, t5⟩ := stringAt_sound hd g1
            rw [t5, Option.bind_some] at g2
            obtain ⟨g3, g4, g5, kids', ms, g6, g7, _, g8⟩ := iho _ _ _ _ e q hn g2
            refine ⟨by omega, g4, g5, kids', ms, g6, g7, fun _ _ => ?_, fun k a => by cases a⟩
            rw [← hd, t1]
            exact .quoted t2 (g8 k rfl (by decide))
          split at h
          · cases h
          split at h
          · cases h
          cases hu : unquotedKey s p with
          | none => rw [hu] at h; cases h
          | some colon =>
            rw [hu] at h
            simp only at h
            obtain ⟨c', w, bl, u1, u2, u3, u4, u5⟩ := unquotedKey_sound hu
            have hk := key_text u1 u2 u3 u4
            rw [← u5] at hk
            rw [hk] at h
            obtain ⟨g3, g4, g5, kids', ms, g6, g7, _, g8⟩ := iho _ _ _ _ e q hn h
            refine ⟨by omega, g4, g5, kids', ms, g6, g7, fun _ _ => ?_, fun k a => by cases a⟩
            rw [← hd, u1]
            exact .bare u2 u3 u4 (g8 _ rfl (by decide))

/-! ## Completeness -/

theorem number_first {t : Bytes} (h : NumberText t) : ∃ c r, t = c :: r ∧ (c = 45 ∨ Dig c) := by
  obtain ⟨h1, b, l, h2, _⟩ := h
  cases t with
  | nil => have := congrArg List.length h2; simp at this
  | cons c r =>
    refine ⟨c, r, rfl, ?_⟩
    rcases h1 [] c r rfl with g | g | ⟨_, b, x, g, _⟩ | ⟨_, _, b, x, g, _⟩ | ⟨_, _, _, b, x, g, _⟩
    · exact .inr g.1
    · exact .inl g.1
    all_goals (have := congrArg List.length g; simp at this)

theorem reads_first {i r : Bytes} {d : Doc} (h : Reads i r d) : ∃ c i', i = c :: i' ∧ c ≠ 0 ∧ isWs c = false ∧ c ≠ 44 ∧ c ≠ 93 ∧ c ≠ 58 ∧ c ≠ 125 := by
  have num : ∀ {t r : Bytes}, NumberText t → ∃ c i', t ++ r = c :: i' ∧ c ≠ 0 ∧ isWs c = false ∧ c ≠ 44 ∧ c ≠ 93 ∧ c ≠ 58 ∧ c ≠ 125 := by
    intro t r h
    obtain ⟨c, r', e, hc⟩ := number_first h
    refine ⟨c, r' ++ r, by rw [e]; rfl, ?_⟩
    rcases hc with rfl | hc
    · decide
    · obtain ⟨a, _, _, _, _, _, _, _, b, _, f, _, _, g, h, i⟩ := dig_facts c hc
      exact ⟨a, g, b, h, f, i⟩
  cases h with
  | null h => exact ⟨_, _, rfl, by decide⟩
  | true h => exact ⟨_, _, rfl, by decide⟩
  | false h => exact ⟨_, _, rfl, by decide⟩
  | integer h _ _ => exact num h
  | real h _ _ => exact num h
  | string _ _ => exact ⟨_, _, rfl, by decide⟩
  | array _ => exact ⟨_, _, rfl, by decide⟩
  | object _ => exact ⟨_, _, rfl, by decide⟩

/-- The parser reads `d` from `i` and leaves `r`. -/
def GoodV (i r : Bytes) (d : Doc) : Prop :=
  ∀ s p fuel c i', s.drop p = i → i = c :: i' → 2 * (s.length - p) ≤ fuel →
    ∃ e q, valueAt fuel s p c = some (.ok (e, q)) ∧ doc e = d ∧ Out s p q ∧ s.drop (q + 1) = r
def GoodI (pl : Place) (i r : Bytes) (ds : List Doc) : Prop :=
  ∀ s p fuel prev kids, s.drop p = i → placeOf prev = pl → 2 * (s.length - p) + 1 ≤ fuel →
    ∃ kids' q, arrLoop fuel s p prev kids = some (.ok (.cont none .array kids', q)) ∧ docs kids' = docs kids ++ ds ∧ p ≤ q ∧ q < s.length ∧ rd s q = some 93 ∧
      s.drop (q + 1) = r
def GoodO (nm : Option Bytes) (ok : UInt8 → Prop) (i r : Bytes) (ms : List (Bytes × Doc)) : Prop :=
  ∀ s p fuel prev kids, s.drop p = i → ok prev → (keys kids).Nodup → 2 * (s.length - p) + 1 ≤ fuel →
    ∃ kids' q, objLoop fuel s p prev nm kids = some (.ok (.cont none .object kids', q)) ∧
      (∀ k, members kids' k = ((ms.reverse.find? fun x => x.1 = k).map Prod.snd).or (members kids k)) ∧ p ≤ q ∧ q < s.length ∧ rd s q = some 125 ∧ s.drop (q + 1) = r
def GoodM (b : Bool) (i r : Bytes) (ms : List (Bytes × Doc)) : Prop := GoodO none (fun prev => prev ≠ 58 ∧ (prev == 44) = b) i r ms
def GoodK (k : Bytes) (b : Bool) (i r : Bytes) (ms : List (Bytes × Doc)) : Prop := GoodO (some k) (fun prev => prev ≠ 44 ∧ (prev == 58) = b) i r ms

theorem good_number {t r : Bytes} (h : NumberText t) (hr : AtSeparator r) : GoodV (t ++ r) r (if 46 ∈ t then .real t else .integer t) := by
  intro s p fuel c i' hs hi hfu
  obtain ⟨c', r', h1, h2⟩ := number_first h
  have hcc : c' = c := by rw [h1] at hi; cases hi; rfl
  subst hcc
  have hne : c' ≠ 34 ∧ c' ≠ 91 ∧ c' ≠ 123 ∧ (c' = 45 ∨ c' = 48 ∨ isDigit19 c' = true) := by
    rcases h2 with rfl | h2
    · decide
    · obtain ⟨_, _, _, _, _, _, _, i, _, b, _, e, f, _⟩ := dig_facts c' h2
      exact ⟨e, b, f, Or.inr i⟩
  have hp := (drop_cons_lt (hs.trans hi)).1
  obtain ⟨b, l, g6, g7⟩ := h.2
  have hl : l ≠ 44 ∧ l ≠ 91 ∧ l ≠ 58 := by
    have := dig_facts l g7; exact ⟨this.2.2.2.2.2.2.2.2.1, this.2.2.2.2.2.2.2.2.2.1, this.2.2.2.2.2.2.2.2.2.2.1⟩
  obtain ⟨o, d⟩ := out_of hs rfl g6 hl
  refine ⟨.prim none (if 46 ∈ t then .real else .integer) t, _, ?_, ?_, o, d⟩
  · rw [scalar_value (by omega) hne.1 hne.2.1 hne.2.2.1, scalarAt, if_pos hne.2.2.2, hs]
    exact numLoop_complete t p {} [] r numInv_init ((atSep_iff _).1 hr) h
  · split <;> rfl

theorem good_word {lit r : Bytes} {e : Elem} {d : Doc} (hw : ∀ (s : Bytes) (p : Nat), s.drop p = lit ++ r → wordAt s p = some (.ok (e, p + lit.length - 1)))
    (hd : doc e = d) (h1 : ∀ c r, lit = c :: r → c ≠ 34 ∧ c ≠ 91 ∧ c ≠ 123 ∧ c ≠ 45 ∧ c ≠ 48 ∧ isDigit19 c = false)
    {b : Bytes} {l : UInt8} (hl : lit = b ++ [l]) (hl' : l ≠ 44 ∧ l ≠ 91 ∧ l ≠ 58) : GoodV (lit ++ r) r d := by
  intro s p fuel c i' hs hi hfu
  have hlit : ∃ r', lit = c :: r' := by
    cases lit with
    | nil => have := congrArg List.length hl; simp at this
    | cons x y => cases hi; exact ⟨y, rfl⟩
  obtain ⟨r', hlit⟩ := hlit
  obtain ⟨a, b', c', e', f, g⟩ := h1 c r' hlit
  have hp := (drop_cons_lt (hs.trans hi)).1
  obtain ⟨o, dd⟩ := out_of hs rfl hl hl'
  exact ⟨e, _, by rw [scalar_value (by omega) a b' c', scalarAt, if_neg (by simp [e', f, g]), hw s p hs], hd, o, dd⟩

theorem good_true {r : Bytes} (hr : AtSeparator r) : GoodV ([116, 114, 117, 101] ++ r) r (.bool true) := by
  refine good_word (e := boolCreate true) ?_ (by simp [doc, boolCreate, litTrue]) (by intro c r h; cases h; decide) (b := [116, 114, 117]) (l := 101) rfl (by decide)
  intro s p hs
  rw [wordAt, literalAt_yes (lit := litTrue) hs (by decide) ((atSep_iff _).1 hr)]; rfl
theorem good_false {r : Bytes} (hr : AtSeparator r) : GoodV ([102, 97, 108, 115, 101] ++ r) r (.bool false) := by
  refine good_word (e := boolCreate false) ?_ (by simp [doc, boolCreate, litFalse]) (by intro c r h; cases h; decide) (b := [102, 97, 108, 115]) (l := 101) rfl (by decide)
  intro s p hs
  rw [wordAt, literalAt_no (lit := litTrue) (by have := drop_len hs (by simp); omega) hs (by simp [litTrue]), Option.bind_some, if_neg (by simp),
    literalAt_yes (lit := litFalse) hs (by decide) ((atSep_iff _).1 hr)]; rfl
theorem good_null {r : Bytes} (hr : AtSeparator r) : GoodV ([110, 117, 108, 108] ++ r) r .null := by
  refine good_word (e := nullCreate) ?_ (by simp [doc, nullCreate]) (by intro c r h; cases h; decide) (b := [110, 117, 108]) (l := 108) rfl (by decide)
  intro s p hs
  rw [wordAt, literalAt_no (lit := litTrue) (by have := drop_len hs (by simp); omega) hs (by simp [litTrue]), Option.bind_some, if_neg (by simp),
    literalAt_no (lit := litFalse) (by have := drop_len hs (by simp); omega) hs (by simp [litFalse]), Option.bind_some, if_neg (by simp),
    literalAt_yes (lit := litNull) hs (by decide) ((atSep_iff _).1 hr)]; rfl

theorem stringAt_complete {t v : Bytes} (h : LooseChars t v) {s : Bytes} {p : Nat} {r : Bytes} (hs : s.drop p = 34 :: (t ++ 34 :: r)) :
    stringAt s p = some (.ok (v, p + t.length + 1)) ∧ p + t.length + 1 < s.length ∧ rd s (p + t.length + 1) = some 34 ∧ s.drop (p + t.length + 1 + 1) = r := by
  obtain ⟨hp, h1⟩ := drop_cons_lt hs
  have h2 : s.drop (p + t.length + 1) = 34 :: r := by
    have := drop_more h1
    rw [show p + t.length + 1 = p + 1 + t.length by omega]; exact this
  obtain ⟨h3, h4⟩ := drop_cons_lt h2
  refine ⟨?_, h3, rd_head h2, h4⟩
  rw [stringAt, h1, strLoop_complete h]; simp; omega

theorem good_string {t u v r : Bytes} (h1 : LooseChars t u) (h2 : SecondPass u v) : GoodV (34 :: (t ++ 34 :: r)) r (.string v) := by
  intro s p fuel c i' hs hi hfu
  cases hi
  obtain ⟨hp, _⟩ := drop_cons_lt hs
  obtain ⟨f, rfl⟩ : ∃ f, fuel = f + 1 := ⟨fuel - 1, by omega⟩
  obtain ⟨g1, g2, g3, g4⟩ := stringAt_complete h1 hs
  refine ⟨stringCreate v, _, ?_, rfl, ⟨by omega, g2, 34, g3, by decide⟩, g4⟩
  rw [valueAt, if_pos rfl, stringValueAt, g1, andThen, decode_of_secondPass h2]

theorem good_array {i r : Bytes} {ds : List Doc} (h : GoodI .start i r ds) : GoodV (91 :: i) r (.array ds) := by
  intro s p fuel c i' hs hi hfu
  cases hi
  obtain ⟨hp, h1⟩ := drop_cons_lt hs
  obtain ⟨f, rfl⟩ : ∃ f, fuel = f + 1 := ⟨fuel - 1, by omega⟩
  obtain ⟨kids', q, g1, g2, g3, g4, g5, g6⟩ := h s (p + 1) f 91 [] h1 rfl (by omega)
  refine ⟨.cont none .array kids', q, ?_, ?_, ⟨by omega, g4, 93, g5, by decide⟩, g6⟩
  · rw [valueAt, if_neg (by decide), if_pos rfl, g1]
  · rw [doc, g2]; simp [docs]

theorem good_object {i r : Bytes} {ms : List (Bytes × Doc)} (h : GoodM false i r ms) :
    GoodV (123 :: i) r (.object fun k => (ms.reverse.find? fun x => x.1 = k).map Prod.snd) := by
  intro s p fuel c i' hs hi hfu
  cases hi
  obtain ⟨hp, h1⟩ := drop_cons_lt hs
  obtain ⟨f, rfl⟩ : ∃ f, fuel = f + 1 := ⟨fuel - 1, by omega⟩
  obtain ⟨kids', q, g1, g2, g3, g4, g5, g6⟩ := h s (p + 1) f 123 [] h1 (by decide) (by simp [keys]) (by omega)
  refine ⟨.cont none .object kids', q, ?_, ?_, ⟨by omega, g4, 125, g5, by decide⟩, g6⟩
  · rw [valueAt, if_neg (by decide), if_neg (by decide), if_pos rfl, g1]
  · rw [doc]; congr 1; funext k; rw [g2]; simp [members]

theorem good_items_close {pl : Place} {r : Bytes} : GoodI pl (93 :: r) r [] := by
  intro s p fuel prev kids hs hpl hfu
  obtain ⟨hp, h1⟩ := drop_cons_lt hs
  obtain ⟨f, rfl⟩ : ∃ f, fuel = f + 1 := ⟨fuel - 1, by omega⟩
  refine ⟨kids, p, ?_, by simp, Nat.le_refl _, hp, rd_head hs, h1⟩
  rw [arrLoop, rd_head hs]; simp [isWs]

theorem good_items_blank {pl : Place} {c : UInt8} {i r : Bytes} {ds : List Doc} (hc : IsBlank c) (h : GoodI pl i r ds) : GoodI pl (c :: i) r ds := by
  intro s p fuel prev kids hs hpl hfu
  obtain ⟨hp, h1⟩ := drop_cons_lt hs
  obtain ⟨f, rfl⟩ : ∃ f, fuel = f + 1 := ⟨fuel - 1, by omega⟩
  obtain ⟨kids', q, g1, g2, g3, g4, g5, g6⟩ := h s (p + 1) f prev kids h1 hpl (by omega)
  refine ⟨kids', q, ?_, g2, by omega, g4, g5, g6⟩
  have h0 : c ≠ 0 := by rcases hc with rfl | rfl | rfl | rfl <;> decide
  rw [arrLoop, rd_head hs]
  simp only [h0, if_false, (isWs_iff c).2 hc, if_true]
  exact g1

theorem good_items_comma {i r : Bytes} {ds : List Doc} (h : GoodI .comma i r ds) : GoodI .value (44 :: i) r ds := by
  intro s p fuel prev kids hs hpl hfu
  obtain ⟨hp, h1⟩ := drop_cons_lt hs
  obtain ⟨f, rfl⟩ : ∃ f, fuel = f + 1 := ⟨fuel - 1, by omega⟩
  obtain ⟨kids', q, g1, g2, g3, g4, g5, g6⟩ := h s (p + 1) f 44 kids h1 rfl (by omega)
  refine ⟨kids', q, ?_, g2, by omega, g4, g5, g6⟩
  have hv : ¬ (prev = 44 ∨ prev = 91) := by
    rintro (rfl | rfl) <;> cases hpl
  rw [arrLoop, rd_head hs]
  simp only [show (44 : UInt8) ≠ 0 by decide, if_false, show isWs 44 = false by rfl, Bool.false_eq_true, if_true, if_neg hv]
  exact g1

theorem good_items_item {pl : Place} {i j r : Bytes} {d : Doc} {ds : List Doc} (hr : Reads i j d) (h : GoodV i j d)
    (hpl : pl = .value → ∀ c i', i = c :: i' → c ≠ 91 ∧ c ≠ 123) (ht : GoodI .value j r ds) : GoodI pl i r (d :: ds) := by
  intro s p fuel prev kids hs hp2 hfu
  obtain ⟨c, i', hi, c1, c2, c3, c4, c5, c6⟩ := reads_first hr
  obtain ⟨hp, h1⟩ := drop_cons_lt (hs.trans hi)
  obtain ⟨f, rfl⟩ : ∃ f, fuel = f + 1 := ⟨fuel - 1, by omega⟩
  obtain ⟨e, q, e1, e2, o, e3⟩ := h s p f c i' hs hi (by omega)
  obtain ⟨l, l1, l2, l3, l4⟩ := o.last
  have := o.le
  obtain ⟨kids', q', g1, g2, g3, g4, g5, g6⟩ := ht s (q + 1) f l (kids ++ [e]) e3 (placeOf_value l3 l2) (by omega)
  refine ⟨kids', q', ?_, ?_, by omega, g4, g5, g6⟩
  · have hv : ¬ ((c = 91 ∨ c = 123) ∧ prev ≠ 91 ∧ prev ≠ 44) := by
      rintro ⟨h1, h2, h3⟩
      have := hpl (by rw [← hp2]; exact placeOf_value h2 h3) c i' hi
      rcases h1 with h1 | h1
      · exact this.1 h1
      · exact this.2 h1
    rw [arrLoop, rd_head (hs.trans hi)]
    simp only [c1, if_false, c2, Bool.false_eq_true, if_neg c3, if_neg c4, if_neg hv]
    rw [e1, andThen, l1, Option.bind_some, g1]
  · rw [g2, docs_append, ← e2]; simp [docs]

theorem good_members_close {b : Bool} {r : Bytes} : GoodM b (125 :: r) r [] := by
  intro s p fuel prev kids hs hok hn hfu
  obtain ⟨hp, h1⟩ := drop_cons_lt hs
  obtain ⟨f, rfl⟩ : ∃ f, fuel = f + 1 := ⟨fuel - 1, by omega⟩
  refine ⟨kids, p, ?_, by simp, Nat.le_refl _, hp, rd_head hs, h1⟩
  rw [objLoop, rd_head hs]; simp [isWs]

theorem good_o_blank {nm : Option Bytes} {ok : UInt8 → Prop} {c : UInt8} {i r : Bytes} {ms : List (Bytes × Doc)} (hc : IsBlank c) (h : GoodO nm ok i r ms) :
    GoodO nm ok (c :: i) r ms := by
  intro s p fuel prev kids hs hok hn hfu
  obtain ⟨hp, h1⟩ := drop_cons_lt hs
  obtain ⟨f, rfl⟩ : ∃ f, fuel = f + 1 := ⟨fuel - 1, by omega⟩
  obtain ⟨kids', q, g1, g2, g3, g4, g5, g6⟩ := h s (p + 1) f prev kids h1 hok hn (by omega)
  refine ⟨kids', q, ?_, g2, by omega, g4, g5, g6⟩
  have h0 : c ≠ 0 := by rcases hc with rfl | rfl | rfl | rfl <;> decide
  rw [objLoop, rd_head hs]
  simp only [h0, if_false, (isWs_iff c).2 hc, if_true]
  exact g1

theorem good_members_comma {i r : Bytes} {ms : List (Bytes × Doc)} (h : GoodM true i r ms) : GoodM false (44 :: i) r ms := by
  intro s p fuel prev kids hs hok hn hfu
  obtain ⟨hp, h1⟩ := drop_cons_lt hs
  obtain ⟨f, rfl⟩ : ∃ f, fuel = f + 1 := ⟨fuel - 1, by omega⟩
  obtain ⟨kids', q, g1, g2, g3, g4, g5, g6⟩ := h s (p + 1) f 44 kids h1 (by decide) hn (by omega)
  refine ⟨kids', q, ?_, g2, by omega, g4, g5, g6⟩
  have hx : ¬ ((none : Option Bytes) ≠ none ∨ prev = 58 ∨ prev = 44) := by
    rintro (h | h | h)
    · exact h rfl
    · exact hok.1 h
    · have := hok.2; rw [h] at this; cases this
  rw [objLoop, rd_head hs]
  simp only [show (44 : UInt8) ≠ 0 by decide, if_false, show isWs 44 = false by rfl, Bool.false_eq_true, if_true, show (44 : UInt8) ≠ 58 by decide, if_neg hx]
  exact g1

theorem good_members_quoted {b : Bool} {t k i r : Bytes} {ms : List (Bytes × Doc)} (hk : LooseChars t k) (h : GoodK k false i r ms) :
    GoodM b (34 :: (t ++ 34 :: i)) r ms := by
  intro s p fuel prev kids hs hok hn hfu
  obtain ⟨hp, h1⟩ := drop_cons_lt hs
  obtain ⟨f, rfl⟩ : ∃ f, fuel = f + 1 := ⟨fuel - 1, by omega⟩
  obtain ⟨t1, t2, t3, t4⟩ := stringAt_complete hk hs
  obtain ⟨kids', q, g1, g2, g3, g4, g5, g6⟩ := h s _ f 34 kids t4 (by decide) hn (by omega)
  refine ⟨kids', q, ?_, g2, by omega, g4, g5, g6⟩
  rw [objLoop, rd_head hs]
  simp only [show (34 : UInt8) ≠ 0 by decide, if_false, show isWs 34 = false by rfl, Bool.false_eq_true, if_true, show (34 : UInt8) ≠ 58 by decide,
    show (34 : UInt8) ≠ 44 by decide, show (34 : UInt8) ≠ 125 by decide]
  rw [t1, andThen, t3, Option.bind_some, g1]

theorem word_facts {c : UInt8} (h : IsWord c) : c ≠ 0 ∧ isWs c = false ∧ c ≠ 58 ∧ c ≠ 44 ∧ c ≠ 125 ∧ c ≠ 34 ∧ c ≠ 91 ∧ c ≠ 123 :=
  Str.byte_all (P := fun c => isWord c = true → c ≠ 0 ∧ isWs c = false ∧ c ≠ 58 ∧ c ≠ 44 ∧ c ≠ 125 ∧ c ≠ 34 ∧ c ≠ 91 ∧ c ≠ 123) (by decide +kernel) c
    ((isWord_iff c).2 h)

theorem good_members_bare {b : Bool} {c : UInt8} {w bl i r : Bytes} {ms : List (Bytes × Doc)} (hc : IsWord c) (hw : ∀ x ∈ w, IsWord x ∨ x = 45)
    (hb : ∀ x ∈ bl, IsBlank x) (h : GoodK (c :: w) true i r ms) : GoodM b (c :: (w ++ bl ++ 58 :: i)) r ms := by
  intro s p fuel prev kids hs hok hn hfu
  obtain ⟨hp, h1⟩ := drop_cons_lt hs
  obtain ⟨f, rfl⟩ : ∃ f, fuel = f + 1 := ⟨fuel - 1, by omega⟩
  obtain ⟨c1, c2, c3, c4, c5, c6, c7, c8⟩ := word_facts hc
  have hcol : s.drop (p + 1 + w.length + bl.length) = 58 :: i := by
    have := drop_more h1
    simpa [Nat.add_assoc] using this
  obtain ⟨h3, h4⟩ := drop_cons_lt hcol
  obtain ⟨kids', q, g1, g2, g3, g4, g5, g6⟩ := h s _ f 58 kids h4 (by decide) hn (by omega)
  refine ⟨kids', q, ?_, g2, by omega, g4, g5, g6⟩
  rw [objLoop, rd_head hs]
  simp only [if_neg c1, c2, Bool.false_eq_true, if_false, if_neg c3, if_neg c4, if_neg c5, if_neg c6, if_neg c7, if_neg c8]
  rw [unquotedKey_complete hs hc hw hb]
  simp only
  rw [key_text hs hc hw hb, g1]

theorem good_key_colon {k i r : Bytes} {ms : List (Bytes × Doc)} (h : GoodK k true i r ms) : GoodK k false (58 :: i) r ms := by
  intro s p fuel prev kids hs hok hn hfu
  obtain ⟨hp, h1⟩ := drop_cons_lt hs
  obtain ⟨f, rfl⟩ : ∃ f, fuel = f + 1 := ⟨fuel - 1, by omega⟩
  obtain ⟨kids', q, g1, g2, g3, g4, g5, g6⟩ := h s (p + 1) f 58 kids h1 (by decide) hn (by omega)
  refine ⟨kids', q, ?_, g2, by omega, g4, g5, g6⟩
  have hx : ¬ (some k = none ∨ prev = 58 ∨ prev = 44) := by
    rintro (h | h | h)
    · cases h
    · have := hok.2; rw [h] at this; cases this
    · exact hok.1 h
  rw [objLoop, rd_head hs]
  simp only [show (58 : UInt8) ≠ 0 by decide, if_false, show isWs 58 = false by rfl, Bool.false_eq_true, if_true, if_neg hx]
  exact g1

theorem good_key_value {k : Bytes} {b : Bool} {i j r : Bytes} {d : Doc} {ms : List (Bytes × Doc)} (hr : Reads i j d) (h : GoodV i j d) (ht : GoodM false j r ms) :
    GoodK k b i r ((k, d) :: ms) := by
  intro s p fuel prev kids hs hok hn hfu
  obtain ⟨c, i', hi, c1, c2, c3, c4, c5, c6⟩ := reads_first hr
  obtain ⟨hp, h1⟩ := drop_cons_lt (hs.trans hi)
  obtain ⟨f, rfl⟩ : ∃ f, fuel = f + 1 := ⟨fuel - 1, by omega⟩
  obtain ⟨e, q, e1, e2, o, e3⟩ := h s p f c i' hs hi (by omega)
  obtain ⟨l, l1, l2, l3, l4⟩ := o.last
  have := o.le
  obtain ⟨kids', q', g1, g2, g3, g4, g5, g6⟩ := ht s (q + 1) f l (appendElement kids k e) e3 ⟨l4, by simp [l2]⟩ (nodup_append k e hn) (by omega)
  refine ⟨kids', q', ?_, ?_, by omega, g4, g5, g6⟩
  · rw [objLoop, rd_head (hs.trans hi)]
    simp only [if_neg c1, c2, Bool.false_eq_true, if_false, if_neg c5, if_neg c3, if_neg c6]
    rw [e1, andThen, l1, Option.bind_some, g1]
  · intro k'
    rw [g2, members_append k e hn, e2, find_cons_or]

theorem reads_good {i r : Bytes} {d : Doc} (h : Reads i r d) : GoodV i r d :=
  Reads.rec (motive_1 := fun i r d _ => GoodV i r d) (motive_2 := fun pl i r ds _ => GoodI pl i r ds) (motive_3 := fun b i r ms _ => GoodM b i r ms)
    (motive_4 := fun k b i r ms _ => GoodK k b i r ms)
    (fun h => good_null h) (fun h => good_true h) (fun h => good_false h)
    (fun h h46 hr => by have := good_number h hr; rwa [if_neg h46] at this) (fun h h46 hr => by have := good_number h hr; rwa [if_pos h46] at this)
    (fun h1 h2 => good_string h1 h2) (fun _ h => good_array h) (fun _ h => good_object h)
    good_items_close (fun hc _ h => good_items_blank hc h) (fun _ h => good_items_comma h) (fun hr hpl _ h ht => good_items_item hr h hpl ht)
    good_members_close (fun hc _ h => good_o_blank hc h) (fun _ h => good_members_comma h) (fun hk _ h => good_members_quoted hk h)
    (fun hc hw hb _ h => good_members_bare hc hw hb h)
    (fun hc _ h => good_o_blank hc h) (fun _ h => good_key_colon h) (fun hr _ h ht => good_key_value hr h ht) h

theorem parseLoop_sound {s : Bytes} (h0 : 0 ∉ s) : ∀ (rest : Bytes) (p : Nat), s.drop p = rest → ∀ e q, parseLoop s rest p = some (.ok (e, q)) →
    ∃ a v, rest = a ++ v ∧ Blank a ∧ q < s.length ∧ Reads v (s.drop (q + 1)) (doc e) := by
  intro rest
  induction rest with
  | nil => intro p _ e q h; cases h
  | cons c rest ih =>
    intro p hs e q h
    obtain ⟨hp, h1⟩ := drop_cons_lt hs
    have hv : valueAt (2 * s.length + 1) s p c = some (.ok (e, q)) → ∃ a v, c :: rest = a ++ v ∧ Blank a ∧ q < s.length ∧ Reads v (s.drop (q + 1)) (doc e) := by
      intro h
      obtain ⟨o, hr⟩ := (loops_sound h0 _).1 p c rest hs e q h
      rw [hs] at hr
      exact ⟨[], c :: rest, rfl, by simp [Blank], o.lt, hr⟩
    rw [parseLoop] at h
    split at h
    · exact hv h
    split at h
    · rename_i hw
      obtain ⟨a, v, g1, g2, g3, g4⟩ := ih (p + 1) h1 e q h
      refine ⟨c :: a, v, by rw [g1]; rfl, ?_, g3, g4⟩
      intro x hx
      rcases List.mem_cons.1 hx with rfl | hx
      · exact (isWs_iff x).1 hw
      · exact g2 x hx
    · exact hv h
end Json

/-- C88: `JsonParse` accepts exactly the texts that start, after blanks, with a text of the grammar `Reads`; the element it gives is the document denoted, and
`*data` is left on the last character of that text (what follows is not looked at). -/
theorem C88_accepts_exactly (s : Bytes) (h0 : 0 ∉ s) (d : Doc) (rest : Bytes) :
    (∃ e q, Json.parse s = some (.ok (e, q)) ∧ doc e = d ∧ q < s.length ∧ s.drop (q + 1) = rest) ↔ ∃ a v, s = a ++ v ∧ Blank a ∧ Reads v rest d := by
  constructor
  · rintro ⟨e, q, h, rfl, _, rfl⟩
    obtain ⟨a, v, g1, g2, _, g3⟩ := Json.parseLoop_sound h0 s 0 rfl e q h
    exact ⟨a, v, g1, g2, g3⟩
  · rintro ⟨a, v, rfl, ha, hr⟩
    obtain ⟨c, i', hi, c1, c2, _⟩ := Json.reads_first hr
    have hs : (a ++ v).drop (0 + a.length) = v := Json.drop_more rfl
    obtain ⟨e, q, e1, e2, o, e3⟩ := Json.reads_good hr (a ++ v) (0 + a.length) (2 * (a ++ v).length + 1) c i' hs hi (by simp; omega)
    refine ⟨e, q, ?_, e2, o.lt, e3⟩
    rw [Json.parse, Json.parse_blank a ha]
    have : Json.parseLoop (a ++ v) v (0 + a.length) = Json.valueAt (2 * (a ++ v).length + 1) (a ++ v) (0 + a.length) c := by
      rw [hi, Json.parseLoop]
      split
      · rfl
      · rw [if_neg (by simp [c2])]
    rw [this, e1]

/-- C88: on a text outside the grammar that does not end in a backslash the parser reports an error. -/
theorem C88_rejects (s : Bytes) (h0 : 0 ∉ s) (hl : s.getLast? ≠ some 92) (h : ¬ ∃ a v r d, s = a ++ v ∧ Blank a ∧ Reads v r d) :
    ∃ err, Json.parse s = some (.error err) := by
  rcases C25_parse_total_partial s h0 hl with h' | ⟨e, q, h1, h2, _⟩
  · exact h'
  · obtain ⟨a, v, g1, g2, g3⟩ := (C88_accepts_exactly s h0 (doc e) _).1 ⟨e, q, h1, rfl, h2, rfl⟩
    exact absurd ⟨a, v, _, _, g1, g2, g3⟩ h

/-- C88: the grammar is unambiguous: a text denotes one document and the reader stops at one place. -/
theorem C88_unambiguous (i r r' : Bytes) (d d' : Doc) (h0 : 0 ∉ i) (h : Reads i r d) (h' : Reads i r' d') : r = r' ∧ d = d' := by
  obtain ⟨e, q, e1, e2, _, e3⟩ := (C88_accepts_exactly i h0 d r).2 ⟨[], i, rfl, by simp [Blank], h⟩
  obtain ⟨f, q', f1, f2, _, f3⟩ := (C88_accepts_exactly i h0 d' r').2 ⟨[], i, rfl, by simp [Blank], h'⟩
  rw [e1] at f1; cases f1
  exact ⟨e3.symm.trans f3, e2.symm.trans f2⟩

-- `{a: [1 2,], "b" true} x`
example : ∃ e q, Json.parse [123, 97, 58, 32, 91, 49, 32, 50, 44, 93, 44, 32, 34, 98, 34, 32, 116, 114, 117, 101, 125, 32, 120] = some (.ok (e, q)) ∧ q = 20 :=
  ⟨_, _, rfl, rfl⟩
-- `[,1]`, `{"a"}`, `{:1}`, `00`, `1.2.3`, `[1[2]]` are not in the language
example : (∃ e, Json.parse [91, 44, 49, 93] = some (.error e)) ∧ (∃ e, Json.parse [123, 34, 97, 34, 125] = some (.error e)) ∧
    (∃ e, Json.parse [123, 58, 49, 125] = some (.error e)) ∧ (∃ e, Json.parse [48, 48] = some (.error e)) ∧
    (∃ e, Json.parse [49, 46, 50, 46, 51] = some (.error e)) ∧ (∃ e, Json.parse [91, 49, 91, 50, 93, 93] = some (.error e)) :=
  ⟨⟨_, rfl⟩, ⟨_, rfl⟩, ⟨_, rfl⟩, ⟨_, rfl⟩, ⟨_, rfl⟩, ⟨_, rfl⟩⟩
