import Verif.Lemmas.MustacheEval
/-! # Data in order, and scoping -/

namespace Mustache
open Json (Bytes Elem)
open MustacheSpec

/-! ## Writing data that is in order -/

theorem sort_id {l : List (Bytes × Bytes × Elem)} (h : l.Pairwise fun a b => OrderSpec.Less id a.1 b.1) : Json.sortKids l = some l := by
  obtain ⟨l', e, hp, hs⟩ := Json.sortKids_spec l
  rw [e]
  congr 1
  have neg : ∀ {a b : Bytes}, OrderSpec.Less id a b → Str.cmpSign id a b = -1 := by
    intro a b hl
    rcases Str.cmpSign_spec id a b with ⟨h1, _⟩ | ⟨_, h2⟩ | ⟨h1, h2⟩
    · exact h1
    · exact absurd h2 (Str.less_irrefl hl)
    · exfalso
      have t := Json.nameCompare_order
      have h3 : Str.cmpSign id a b = 1 := h1
      rcases Str.cmpSign_spec id b a with ⟨k1, k2⟩ | ⟨_, k2⟩ | ⟨k1, k2⟩
      · exact absurd rfl (Str.less_irrefl (Str.less_trans hl h2))
      · exact Str.less_irrefl hl k2.symm
      · exact absurd rfl (Str.less_irrefl (Str.less_trans hl h2))
  have hl : l.Pairwise fun a b => Json.nameCompare a b ≤ 0 := h.imp fun {a b} hab => by
    show Str.cmpSign id a.1 b.1 ≤ 0
    rw [neg hab]; omega
  refine List.Perm.eq_of_pairwise (le := fun a b => Json.nameCompare a b ≤ 0) ?_ hs hl hp
  intro a b ha hb h1 h2
  have ha' := hp.mem_iff.mp ha
  have hab : ∀ a ∈ l, ∀ b ∈ l, a = b ∨ OrderSpec.Less id a.1 b.1 ∨ OrderSpec.Less id b.1 a.1 := by
    clear hl hs hp e ha hb ha' h1 h2
    induction l with
    | nil => simp
    | cons c l ih =>
      rw [List.pairwise_cons] at h
      intro a ha b hb
      rcases List.mem_cons.mp ha with e1 | ha1
      · rcases List.mem_cons.mp hb with e2 | hb1
        · exact Or.inl (e1.trans e2.symm)
        · rw [e1]; exact Or.inr (Or.inl (h.1 b hb1))
      · rcases List.mem_cons.mp hb with e2 | hb1
        · rw [e2]; exact Or.inr (Or.inr (h.1 a ha1))
        · exact ih h.2 a ha1 b hb1
  have hb' : b ∈ l := hb
  rcases hab a ha' b hb' with h | h | h
  · exact h
  · exfalso
    have := neg h
    rcases Str.cmpSign_spec id b.1 a.1 with ⟨k1, k2⟩ | ⟨_, k2⟩ | ⟨k1, k2⟩
    · exact absurd rfl (Str.less_irrefl (Str.less_trans h k2))
    · exact Str.less_irrefl h k2.symm
    · have : Str.cmpSign id b.1 a.1 ≤ 0 := h2
      omega
  · exfalso
    rcases Str.cmpSign_spec id a.1 b.1 with ⟨k1, k2⟩ | ⟨_, k2⟩ | ⟨k1, k2⟩
    · exact absurd rfl (Str.less_irrefl (Str.less_trans h k2))
    · exact Str.less_irrefl h k2.symm
    · have : Str.cmpSign id a.1 b.1 ≤ 0 := h1
      omega

mutual
theorem write_inOrder : ∀ (e : Elem) (lvl : Nat), InOrder e → ∀ t e', Json.write lvl e = some (t, e') → e' = e
  | .prim n t v, _, _, tx, e', h => by rw [Json.write] at h; cases h; rfl
  | .cont n .array ks, lvl, hi, tx, e', h => by
    rw [Json.write] at h
    simp only [Option.bind_eq_some_iff] at h
    obtain ⟨r, h1, h2⟩ := h
    cases h2
    rw [writeKids_inOrder ks (lvl + 1) hi r h1]
  | .cont n .object ks, lvl, hi, tx, e', h => by
    rw [Json.write] at h
    simp only [Option.bind_eq_some_iff] at h
    obtain ⟨r, h1, r', h2, h3⟩ := h
    obtain ⟨a, b⟩ := writeNamed_inOrder ks (lvl + 1) hi.1 r h1
    rw [sort_id (b hi.2)] at h2
    cases h2; cases h3
    rw [a]
theorem writeKids_inOrder : ∀ (es : List Elem) (lvl : Nat), InOrderAll es → ∀ r, Json.writeKids lvl es = some r → r.map Prod.snd = es
  | [], _, _, r, h => by rw [Json.writeKids] at h; cases h; rfl
  | e :: es, lvl, hi, r, h => by
    rw [Json.writeKids] at h
    simp only [Option.bind_eq_some_iff, Option.map_eq_some_iff] at h
    obtain ⟨x, h1, r', h2, h3⟩ := h
    cases h3
    rw [List.map_cons, writeKids_inOrder es lvl hi.2 r' h2, write_inOrder e lvl hi.1 x.1 x.2 h1]
theorem writeNamed_inOrder : ∀ (es : List Elem) (lvl : Nat), InOrderAll es → ∀ r, Json.writeNamed lvl es = some r → (r.map fun x => x.2.2) = es ∧
    ((es.Pairwise fun a b => ∃ x y, a.name = some x ∧ b.name = some y ∧ OrderSpec.Less id x y) → r.Pairwise fun a b => OrderSpec.Less id a.1 b.1)
  | [], _, _, r, h => by rw [Json.writeNamed] at h; cases h; exact ⟨rfl, fun _ => .nil⟩
  | e :: es, lvl, hi, r, h => by
    rw [Json.writeNamed] at h
    simp only [Option.bind_eq_some_iff, Option.map_eq_some_iff] at h
    obtain ⟨k, h0, x, h1, r', h2, h3⟩ := h
    cases h3
    obtain ⟨a, b⟩ := writeNamed_inOrder es lvl hi.2 r' h2
    refine ⟨by rw [List.map_cons, a, write_inOrder e lvl hi.1 x.1 x.2 h1], ?_⟩
    intro hp
    rw [List.pairwise_cons] at hp ⊢
    refine ⟨?_, b hp.2⟩
    have hnames := writeNamed_names es lvl r' h2
    intro y hy
    obtain ⟨c, hc, hn⟩ := hnames y hy
    obtain ⟨u, v, g1, g2, g3⟩ := hp.1 c hc
    rw [h0] at g1; rw [hn] at g2
    cases g1; cases g2
    exact g3
theorem writeNamed_names : ∀ (es : List Elem) (lvl : Nat) (r : List (Bytes × Bytes × Elem)), Json.writeNamed lvl es = some r → ∀ y ∈ r, ∃ c ∈ es, c.name = some y.1
  | [], _, r, h => by rw [Json.writeNamed] at h; cases h; simp
  | e :: es, lvl, r, h => by
    rw [Json.writeNamed] at h
    simp only [Option.bind_eq_some_iff, Option.map_eq_some_iff] at h
    obtain ⟨k, h0, x, h1, r', h2, h3⟩ := h
    cases h3
    intro y hy
    rcases List.mem_cons.mp hy with rfl | hy
    · exact ⟨e, by simp, h0⟩
    · obtain ⟨c, hc, hn⟩ := writeNamed_names es lvl r' h2 y hy
      exact ⟨c, by simp [hc], hn⟩
end

mutual
theorem compact_inOrder : ∀ (e : Elem), InOrder e → ∀ t e', Json.writeCompact e = some (t, e') → e' = e
  | .prim n t v, _, tx, e', h => by rw [Json.writeCompact] at h; cases h; rfl
  | .cont n .array ks, hi, tx, e', h => by
    rw [Json.writeCompact] at h
    simp only [Option.bind_eq_some_iff] at h
    obtain ⟨r, h1, h2⟩ := h
    cases h2
    rw [compactKids_inOrder ks hi r h1]
  | .cont n .object ks, hi, tx, e', h => by
    rw [Json.writeCompact] at h
    simp only [Option.bind_eq_some_iff] at h
    obtain ⟨r, h1, r', h2, h3⟩ := h
    obtain ⟨a, b⟩ := compactNamed_inOrder ks hi.1 r h1
    rw [sort_id (b hi.2)] at h2
    cases h2; cases h3
    rw [a]
theorem compactKids_inOrder : ∀ (es : List Elem), InOrderAll es → ∀ r, Json.writeCompactKids es = some r → r.map Prod.snd = es
  | [], _, r, h => by rw [Json.writeCompactKids] at h; cases h; rfl
  | e :: es, hi, r, h => by
    rw [Json.writeCompactKids] at h
    simp only [Option.bind_eq_some_iff, Option.map_eq_some_iff] at h
    obtain ⟨x, h1, r', h2, h3⟩ := h
    cases h3
    rw [List.map_cons, compactKids_inOrder es hi.2 r' h2, compact_inOrder e hi.1 x.1 x.2 h1]
theorem compactNamed_inOrder : ∀ (es : List Elem), InOrderAll es → ∀ r, Json.writeCompactNamed es = some r → (r.map fun x => x.2.2) = es ∧
    ((es.Pairwise fun a b => ∃ x y, a.name = some x ∧ b.name = some y ∧ OrderSpec.Less id x y) → r.Pairwise fun a b => OrderSpec.Less id a.1 b.1)
  | [], _, r, h => by rw [Json.writeCompactNamed] at h; cases h; exact ⟨rfl, fun _ => .nil⟩
  | e :: es, hi, r, h => by
    rw [Json.writeCompactNamed] at h
    simp only [Option.bind_eq_some_iff, Option.map_eq_some_iff] at h
    obtain ⟨k, h0, x, h1, r', h2, h3⟩ := h
    cases h3
    obtain ⟨a, b⟩ := compactNamed_inOrder es hi.2 r' h2
    refine ⟨by rw [List.map_cons, a, compact_inOrder e hi.1 x.1 x.2 h1], ?_⟩
    intro hp
    rw [List.pairwise_cons] at hp ⊢
    refine ⟨?_, b hp.2⟩
    have hnames := compactNamed_names es r' h2
    intro y hy
    obtain ⟨c, hc, hn⟩ := hnames y hy
    obtain ⟨u, v, g1, g2, g3⟩ := hp.1 c hc
    rw [h0] at g1; rw [hn] at g2
    cases g1; cases g2
    exact g3
theorem compactNamed_names : ∀ (es : List Elem) (r : List (Bytes × Bytes × Elem)), Json.writeCompactNamed es = some r → ∀ y ∈ r, ∃ c ∈ es, c.name = some y.1
  | [], r, h => by rw [Json.writeCompactNamed] at h; cases h; simp
  | e :: es, r, h => by
    rw [Json.writeCompactNamed] at h
    simp only [Option.bind_eq_some_iff, Option.map_eq_some_iff] at h
    obtain ⟨k, h0, x, h1, r', h2, h3⟩ := h
    cases h3
    intro y hy
    rcases List.mem_cons.mp hy with rfl | hy
    · exact ⟨e, by simp, h0⟩
    · obtain ⟨c, hc, hn⟩ := compactNamed_names es r' h2 y hy
      exact ⟨c, by simp [hc], hn⟩
end

theorem inOrderAll_mem {es : List Elem} (h : InOrderAll es) : ∀ e ∈ es, InOrder e := by
  induction es with
  | nil => simp
  | cons a es ih =>
    intro e he
    rcases List.mem_cons.mp he with rfl | he
    · exact h.1
    · exact ih h.2 e he

theorem inOrder_get {e v : Elem} {p : Path} (h : InOrder e) (hg : get e p = some v) : InOrder v := by
  induction p generalizing e with
  | nil => rw [get] at hg; cases hg; exact h
  | cons s p ih =>
    rw [get] at hg
    cases hc : child e s with
    | none => rw [hc] at hg; cases hg
    | some c =>
      rw [hc, Option.bind_some] at hg
      refine ih ?_ hg
      cases e with
      | prim => cases s <;> cases hc
      | cont n ct ks =>
        cases s with
        | key k => cases ct with
          | array => cases hc
          | object => exact inOrderAll_mem h.1 c (List.mem_of_find?_eq_some hc)
        | idx i => cases ct with
          | object => cases hc
          | array => exact inOrderAll_mem h c (List.mem_of_getElem? hc)

/-- What the writer of this library makes of a container. -/
def writerEnv (real : Bytes → Bytes) : Env where
  real := real
  pretty e := ((Json.jsonWrite 0 e).map Prod.fst).getD []
  compact e := ((Json.writeCompact e).map Prod.fst).getD []

theorem stable_inOrder {root : Elem} (hw : WF root) (hi : InOrder root) (real : Bytes → Bytes) : Stable (writerEnv real) root := by
  intro p n ct ks hg
  have hi' := inOrder_get hi hg
  have hw' := get_wf hw hg
  obtain ⟨t1, e1, a1, _⟩ := write_twin _ 0 hw'
  obtain ⟨t2, e2, a2, _⟩ := compact_twin _ hw'
  have b1 := write_inOrder _ 0 hi' t1 e1 a1
  have b2 := compact_inOrder _ hi' t2 e2 a2
  subst b1; subst b2
  have a1' : Json.jsonWrite 0 (.cont n ct ks) = some (t1, .cont n ct ks) := a1
  exact ⟨by simp only [writerEnv, a1', Option.map_some, Option.getD_some], by simp only [writerEnv, a2, Option.map_some, Option.getD_some]⟩

/-! ## Scoping -/

theorem andThen_ok {o : Outcome} {f : Scopes → Outcome} {text : Bytes} {ss : Scopes} (h : o.andThen f = .ok text ss) : ∃ a ss1 b, o = .ok a ss1 ∧ f ss1 = .ok b ss ∧ text = a ++ b := by
  cases o with
  | stop a w => cases h
  | ok a ss1 =>
    simp only [Outcome.andThen] at h
    cases hf : f ss1 with
    | stop b w => rw [hf] at h; cases h
    | ok b ss2 => rw [hf] at h; cases h; exact ⟨a, ss1, b, rfl, hf, rfl⟩

theorem forEach_lexical {f : Bytes → Scopes → Outcome} (hf : ∀ k ss text ss', f k ss = .ok text ss' → ss' = ss) : ∀ items ss text ss',
    forEach f items ss = .ok text ss' → ss' = ss := by
  intro items
  induction items with
  | nil => intro ss text ss' h; cases h; rfl
  | cons x items ih =>
    intro ss text ss' h
    rw [forEach] at h
    obtain ⟨a, ss1, b, h1, h2, _⟩ := andThen_ok h
    have := hf _ _ _ _ h1
    subst this
    exact ih _ _ _ h2

theorem eval_lexical (env : Env) (tpl : Tpl) : ∀ skip key ss text ss', tpl.eval env false skip key ss = .ok text ss' → ss' = ss := by
  induction tpl with
  | nil => intro skip key ss text ss' h; cases h; rfl
  | text s rest ih =>
    intro skip key ss text ss' h
    rw [Tpl.eval] at h
    obtain ⟨a, ss1, b, h1, h2, _⟩ := andThen_ok h
    cases h1
    exact ih _ _ _ _ _ h2
  | var k n rest ih =>
    intro skip key ss text ss' h
    rw [Tpl.eval] at h
    obtain ⟨a, ss1, b, h1, h2, _⟩ := andThen_ok h
    have : ss1 = ss := by
      unfold varOutcome at h1
      split at h1
      · cases h1; rfl
      · split at h1
        · cases h1; rfl
        · cases h1
    subst this
    exact ih _ _ _ _ _ h2
  | comment lay s rest ih =>
    intro skip key ss text ss' h
    exact ih _ _ _ _ _ h
  | «section» inv lay n body clay cl rest ihb ihr =>
    intro skip key ss text ss' h
    rw [Tpl.eval] at h
    obtain ⟨a, ss1, b, h1, h2, _⟩ := andThen_ok h
    have : ss1 = ss := by
      unfold sectionOutcome at h1
      split at h1
      · cases h1
      · obtain ⟨a', ss2, b', g1, g2, _⟩ := andThen_ok h1
        have := ihb _ _ _ _ _ g1
        subst this
        cases g2; rfl
      · obtain ⟨a', ss2, b', g1, g2, _⟩ := andThen_ok h1
        have := forEach_lexical (fun k ss text ss' h => ihb _ _ _ _ _ h) _ _ _ _ g1
        subst this
        cases g2; rfl
    subst this
    exact ihr _ _ _ _ _ h2

/-- Two lists of scopes in which names and the current element are the same. -/
def Same (a b : Scopes) : Prop := (∀ n, denote a n = denote b n) ∧ a.head?.join = b.head?.join

/-- The same text, and scopes that end as they began. -/
def SameOut (a b : Scopes) (o o' : Outcome) : Prop := (∃ text, o = .ok text a ∧ o' = .ok text b) ∨ ∃ text w, o = .stop text w ∧ o' = .stop text w

theorem SameOut.andThen {a b : Scopes} {o o' : Outcome} {f g : Scopes → Outcome} (h : SameOut a b o o') (h' : SameOut a b (f a) (g b)) : SameOut a b (o.andThen f) (o'.andThen g) := by
  rcases h with ⟨t1, rfl, rfl⟩ | ⟨t1, w, rfl, rfl⟩
  · simp only [Outcome.andThen]
    rcases h' with ⟨t2, h1, h2⟩ | ⟨t2, w, h1, h2⟩
    · rw [h1, h2]; exact Or.inl ⟨_, rfl, rfl⟩
    · rw [h1, h2]; exact Or.inr ⟨_, _, rfl, rfl⟩
  · exact Or.inr ⟨_, _, rfl, rfl⟩

theorem varText_same {env : Env} {a b : Scopes} (h : Same a b) (key : Option Bytes) (k : Kind) (n : Bytes) : varText env a key k n = varText env b key k n := by
  unfold varText
  rw [h.1, h.2]

theorem varOutcome_same {env : Env} {a b : Scopes} {key : Option Bytes} {k : Kind} {n : Bytes} (h : varText env a key k n = varText env b key k n) (skip : Bool) :
    SameOut a b (varOutcome env skip key k n a) (varOutcome env skip key k n b) := by
  unfold varOutcome
  rw [h]
  split
  · exact Or.inl ⟨_, rfl, rfl⟩
  · split
    · exact Or.inl ⟨_, rfl, rfl⟩
    · exact Or.inr ⟨_, _, rfl, rfl⟩

theorem body_same (env : Env) (l l' : Bool) : ∀ (tpl : Tpl), tpl.noSection = true → ∀ skip key a b, Same a b →
    SameOut a b (tpl.eval env l skip key a) (tpl.eval env l' skip key b) := by
  intro tpl
  induction tpl with
  | nil => intro _ skip key a b _; exact Or.inl ⟨_, rfl, rfl⟩
  | text s rest ih => intro hn skip key a b h; exact SameOut.andThen (Or.inl ⟨_, rfl, rfl⟩) (ih hn skip key a b h)
  | var k n rest ih => intro hn skip key a b h; exact SameOut.andThen (varOutcome_same (varText_same h key k n.name) skip) (ih hn skip key a b h)
  | comment lay s rest ih => intro hn skip key a b h; exact ih hn skip key a b h
  | «section» => intro hn; cases hn

/-- Arrays put on top of the scopes. -/
def Under (a b : Scopes) : Prop := b ≠ [] ∧ ∃ l : List (Option Bytes × List Elem), a = l.map (fun x => some (Elem.cont x.1 .array x.2)) ++ b

theorem under_denote {a b : Scopes} (h : Under a b) (v : List (Option Elem)) (n : Bytes) : denote (v ++ a) n = denote (v ++ b) n := by
  obtain ⟨hb, l, rfl⟩ := h
  have hr : ∀ k, resolve k (v ++ (l.map (fun x => some (Elem.cont x.1 .array x.2)) ++ b)) = resolve k (v ++ b) := by
    intro k
    induction v with
    | nil =>
      induction l with
      | nil => rfl
      | cons x l ih => simpa [resolve, member] using ih
    | cons x v ih => simp only [List.cons_append, resolve]; rw [ih]
  have hl : (v ++ (l.map (fun x => some (Elem.cont x.1 .array x.2)) ++ b)).getLast? = (v ++ b).getLast? := by
    obtain ⟨y, hy⟩ : ∃ y, b.getLast? = some y := ⟨_, List.getLast?_eq_some_getLast hb⟩
    simp [List.getLast?_append, hy]
  have hbase : ∀ c, base (v ++ (l.map (fun x => some (Elem.cont x.1 .array x.2)) ++ b)) c = base (v ++ b) c := by
    intro c; unfold base; rw [hr, hl]
  unfold denote
  split
  · exact hbase _
  · rw [hbase]

theorem flat_same (env : Env) : ∀ (tpl : Tpl), tpl.flat = true → ∀ skip key a b, Under a b →
    (∃ text a', tpl.eval env true skip key a = .ok text a' ∧ tpl.eval env false skip key b = .ok text b ∧ Under a' b) ∨
    ∃ text w, tpl.eval env true skip key a = .stop text w ∧ tpl.eval env false skip key b = .stop text w := by
  intro tpl
  have glue : ∀ {o o' : Outcome} {f g : Scopes → Outcome} {b : Scopes},
      ((∃ text a', o = .ok text a' ∧ o' = .ok text b ∧ Under a' b) ∨ ∃ text w, o = .stop text w ∧ o' = .stop text w) →
      (∀ a, Under a b → (∃ text a', f a = .ok text a' ∧ g b = .ok text b ∧ Under a' b) ∨ ∃ text w, f a = .stop text w ∧ g b = .stop text w) →
      (∃ text a', o.andThen f = .ok text a' ∧ o'.andThen g = .ok text b ∧ Under a' b) ∨ ∃ text w, o.andThen f = .stop text w ∧ o'.andThen g = .stop text w := by
    intro o o' f g b h1 h2
    rcases h1 with ⟨t1, a1, rfl, rfl, hu⟩ | ⟨t1, w, rfl, rfl⟩
    · simp only [Outcome.andThen]
      rcases h2 a1 hu with ⟨t2, a2, e1, e2, hu2⟩ | ⟨t2, w, e1, e2⟩
      · rw [e1, e2]; exact Or.inl ⟨_, _, rfl, rfl, hu2⟩
      · rw [e1, e2]; exact Or.inr ⟨_, _, rfl, rfl⟩
    · exact Or.inr ⟨_, _, rfl, rfl⟩
  have lift : ∀ {a b : Scopes} {o o' : Outcome}, Under a b → SameOut a b o o' →
      (∃ text a', o = .ok text a' ∧ o' = .ok text b ∧ Under a' b) ∨ ∃ text w, o = .stop text w ∧ o' = .stop text w := by
    intro a b o o' hu h
    rcases h with ⟨t, h1, h2⟩ | h
    · exact Or.inl ⟨t, a, h1, h2, hu⟩
    · exact Or.inr h
  induction tpl with
  | nil => intro _ skip key a b h; exact Or.inl ⟨_, _, rfl, rfl, h⟩
  | text s rest ih =>
    intro hf skip key a b h
    exact glue (lift h (Or.inl ⟨_, rfl, rfl⟩)) fun a' ha' => ih hf skip key a' b ha'
  | comment lay s rest ih => intro hf skip key a b h; exact ih hf skip key a b h
  | var k n rest ih =>
    intro hf skip key a b h
    simp only [Tpl.flat, Bool.and_eq_true, bne_iff_ne, ne_eq] at hf
    have hv : varText env a key k n.name = varText env b key k n.name := by
      unfold varText
      rw [if_neg hf.1.2, if_neg hf.1.1, if_neg hf.1.2, if_neg hf.1.1, show denote a n.name = denote b n.name from under_denote h [] n.name]
    exact glue (lift h (varOutcome_same hv skip)) fun a' ha' => ih hf.2 skip key a' b ha'
  | «section» inv lay n body clay cl rest _ ihr =>
    intro hf skip key a b h
    simp only [Tpl.flat, Bool.and_eq_true, Bool.not_eq_true'] at hf
    obtain ⟨⟨hns, huk⟩, hrest⟩ := hf
    simp only [Tpl.eval]
    have hd : denote a n.name = denote b n.name := under_denote h [] n.name
    rw [hd]
    refine glue ?_ fun a' ha' => ihr hrest skip key a' b ha'
    generalize hv : denote b n.name = v
    cases hm : mode skip inv body v with
    | stop => exact Or.inr ⟨_, _, rfl, rfl⟩
    | once skip' =>
      simp only [sectionOutcome]
      have := body_same env true false body hns skip' none (v :: a) (v :: b) ⟨fun n => under_denote h [v] n, rfl⟩
      rcases this with ⟨t, h1, h2⟩ | ⟨t, w, h1, h2⟩
      · rw [h1, h2]
        exact Or.inl ⟨_, _, rfl, rfl, h⟩
      · rw [h1, h2]
        exact Or.inr ⟨_, _, rfl, rfl⟩
    | each items skip' =>
      simp only [sectionOutcome]
      have harr : ∃ nm ks, v = some (.cont nm .array ks) := by
        unfold mode at hm
        rw [huk] at hm
        split at hm
        · cases hm
        · cases hm
        · cases hm
        · simp at hm
        · rename_i nm ks; exact ⟨nm, ks, rfl⟩
      obtain ⟨nm, ks, rfl⟩ := harr
      have hu : Under (some (.cont nm .array ks) :: a) b := by
        obtain ⟨h1, l, rfl⟩ := h
        exact ⟨h1, (nm, ks) :: l, rfl⟩
      have hfe : ∀ items : List (Bytes × Elem), SameOut (some (.cont nm .array ks) :: a) (some (.cont nm .array ks) :: b)
          (forEach (fun k ss => body.eval env true skip' (some k) ss) items (some (.cont nm .array ks) :: a))
          (forEach (fun k ss => body.eval env false skip' (some k) ss) items (some (.cont nm .array ks) :: b)) := by
        intro items
        induction items with
        | nil => exact Or.inl ⟨_, rfl, rfl⟩
        | cons x items ih =>
          simp only [forEach]
          have := body_same env true false body hns skip' (some x.1) (some x.2 :: some (.cont nm .array ks) :: a) (some x.2 :: some (.cont nm .array ks) :: b)
            ⟨fun n => under_denote h [some x.2, some (.cont nm .array ks)] n, rfl⟩
          rcases this with ⟨t, h1, h2⟩ | ⟨t, w, h1, h2⟩
          · rw [h1, h2]
            simp only [Outcome.andThen, List.tail_cons]
            rcases ih with ⟨t2, h3, h4⟩ | ⟨t2, w, h3, h4⟩
            · rw [h3, h4]; exact Or.inl ⟨_, rfl, rfl⟩
            · rw [h3, h4]; exact Or.inr ⟨_, _, rfl, rfl⟩
          · rw [h1, h2]; exact Or.inr ⟨_, _, rfl, rfl⟩
      rcases hfe items with ⟨t, h1, h2⟩ | ⟨t, w, h1, h2⟩
      · rw [h1, h2]
        exact Or.inl ⟨_, _, rfl, rfl, hu⟩
      · rw [h1, h2]
        exact Or.inr ⟨_, _, rfl, rfl⟩

/-! ## Nested sections -/

theorem mode_skip (skip inv : Bool) (body : Tpl) (v : Option Elem) : (∀ s, mode false inv body v = .once s → ∃ s', mode skip inv body v = .once s') ∧
    (∀ items s, mode false inv body v = .each items s → ∃ s', mode skip inv body v = .each items s') ∧ (mode false inv body v = .stop → mode skip inv body v = .stop) := by
  unfold mode
  split
  · simp
  · simp
  · simp
  · split
    · split <;> simp
    · simp
  · split <;> simp

theorem nested_same (env : Env) {a b : Scopes} (hu : Under a b) : ∀ (tpl : Tpl) (x : Option Elem) (v : List (Option Elem)), tpl.calm true (x :: v ++ b) = true → ∀ skip key,
    SameOut (x :: v ++ a) (x :: v ++ b) (tpl.eval env true skip key (x :: v ++ a)) (tpl.eval env false skip key (x :: v ++ b)) := by
  intro tpl
  induction tpl with
  | nil => intro x v _ skip key; exact Or.inl ⟨_, rfl, rfl⟩
  | text s rest ih => intro x v hc skip key; exact SameOut.andThen (Or.inl ⟨_, rfl, rfl⟩) (ih x v hc skip key)
  | var k n rest ih =>
    intro x v hc skip key
    rw [Tpl.calm, Bool.and_eq_true] at hc
    exact SameOut.andThen (varOutcome_same (varText_same ⟨fun n => under_denote hu (x :: v) n, rfl⟩ key k n.name) skip) (ih x v hc.2 skip key)
  | comment lay s rest ih => intro x v hc skip key; exact ih x v hc skip key
  | «section» inv lay n body clay cl rest ihb ihr =>
    intro x v hc skip key
    rw [Tpl.calm, Bool.and_eq_true] at hc
    simp only [Tpl.eval]
    have hd : denote (x :: v ++ a) n.name = denote (x :: v ++ b) n.name := under_denote hu (x :: v) n.name
    rw [hd]
    refine SameOut.andThen ?_ (ihr x v hc.2 skip key)
    have hc1 := hc.1
    generalize hv : denote (x :: v ++ b) n.name = w at hc1 ⊢
    obtain ⟨m1, m2, m3⟩ := mode_skip skip inv body w
    cases hm : mode false inv body w with
    | stop => rw [m3 hm]; exact Or.inr ⟨_, _, rfl, rfl⟩
    | each items s => rw [hm] at hc1; simp at hc1
    | once s =>
      obtain ⟨s', hs'⟩ := m1 s hm
      rw [hm] at hc1
      rw [hs']
      simp only [sectionOutcome]
      rcases ihb w (x :: v) hc1 s' none with ⟨t, h1, h2⟩ | ⟨t, w', h1, h2⟩
      · simp only [List.cons_append] at h1 h2 ⊢
        rw [h1, h2]
        exact Or.inl ⟨_, rfl, rfl⟩
      · simp only [List.cons_append] at h1 h2 ⊢
        rw [h1, h2]
        exact Or.inr ⟨_, _, rfl, rfl⟩

theorem calm_same (env : Env) : ∀ (tpl : Tpl) (b : Scopes), tpl.calm false b = true → ∀ skip key a, Under a b →
    (∃ text a', tpl.eval env true skip key a = .ok text a' ∧ tpl.eval env false skip key b = .ok text b ∧ Under a' b) ∨
    ∃ text w, tpl.eval env true skip key a = .stop text w ∧ tpl.eval env false skip key b = .stop text w := by
  intro tpl b
  have glue : ∀ {o o' : Outcome} {f g : Scopes → Outcome},
      ((∃ text a', o = .ok text a' ∧ o' = .ok text b ∧ Under a' b) ∨ ∃ text w, o = .stop text w ∧ o' = .stop text w) →
      (∀ a, Under a b → (∃ text a', f a = .ok text a' ∧ g b = .ok text b ∧ Under a' b) ∨ ∃ text w, f a = .stop text w ∧ g b = .stop text w) →
      (∃ text a', o.andThen f = .ok text a' ∧ o'.andThen g = .ok text b ∧ Under a' b) ∨ ∃ text w, o.andThen f = .stop text w ∧ o'.andThen g = .stop text w := by
    intro o o' f g h1 h2
    rcases h1 with ⟨t1, a1, rfl, rfl, hu⟩ | ⟨t1, w, rfl, rfl⟩
    · simp only [Outcome.andThen]
      rcases h2 a1 hu with ⟨t2, a2, e1, e2, hu2⟩ | ⟨t2, w, e1, e2⟩
      · rw [e1, e2]; exact Or.inl ⟨_, _, rfl, rfl, hu2⟩
      · rw [e1, e2]; exact Or.inr ⟨_, _, rfl, rfl⟩
    · exact Or.inr ⟨_, _, rfl, rfl⟩
  have lift : ∀ {a : Scopes} {o o' : Outcome}, Under a b → SameOut a b o o' →
      (∃ text a', o = .ok text a' ∧ o' = .ok text b ∧ Under a' b) ∨ ∃ text w, o = .stop text w ∧ o' = .stop text w := by
    intro a o o' hu h
    rcases h with ⟨t, h1, h2⟩ | h
    · exact Or.inl ⟨t, a, h1, h2, hu⟩
    · exact Or.inr h
  induction tpl with
  | nil => intro _ skip key a h; exact Or.inl ⟨_, _, rfl, rfl, h⟩
  | text s rest ih =>
    intro hf skip key a h
    exact glue (lift h (Or.inl ⟨_, rfl, rfl⟩)) fun a' ha' => ih hf skip key a' ha'
  | comment lay s rest ih => intro hf skip key a h; exact ih hf skip key a h
  | var k n rest ih =>
    intro hf skip key a h
    simp only [Tpl.calm, Bool.false_or, Bool.and_eq_true, bne_iff_ne, ne_eq] at hf
    have hv : varText env a key k n.name = varText env b key k n.name := by
      unfold varText
      rw [if_neg hf.1.2, if_neg hf.1.1, if_neg hf.1.2, if_neg hf.1.1, show denote a n.name = denote b n.name from under_denote h [] n.name]
    exact glue (lift h (varOutcome_same hv skip)) fun a' ha' => ih hf.2 skip key a' ha'
  | «section» inv lay n body clay cl rest _ ihr =>
    intro hf skip key a h
    rw [Tpl.calm, Bool.and_eq_true] at hf
    obtain ⟨hbody, hrest⟩ := hf
    simp only [Tpl.eval]
    have hd : denote a n.name = denote b n.name := under_denote h [] n.name
    rw [hd]
    refine glue ?_ fun a' ha' => ihr hrest skip key a' ha'
    generalize hv : denote b n.name = v at hbody ⊢
    obtain ⟨m1, m2, m3⟩ := mode_skip skip inv body v
    cases hm : mode false inv body v with
    | stop => rw [m3 hm]; exact Or.inr ⟨_, _, rfl, rfl⟩
    | once s =>
      obtain ⟨s', hs'⟩ := m1 s hm
      rw [hm] at hbody
      rw [hs']
      simp only [sectionOutcome]
      rcases nested_same env h body v [] hbody s' none with ⟨t, h1, h2⟩ | ⟨t, w, h1, h2⟩
      · simp only [List.cons_append, List.nil_append] at h1 h2
        rw [h1, h2]
        exact Or.inl ⟨_, _, rfl, rfl, h⟩
      · simp only [List.cons_append, List.nil_append] at h1 h2
        rw [h1, h2]
        exact Or.inr ⟨_, _, rfl, rfl⟩
    | each items s =>
      obtain ⟨s', hs'⟩ := m2 items s hm
      rw [hm] at hbody
      simp only [Bool.not_false, Bool.true_and, Bool.and_eq_true, Bool.not_eq_true', List.all_eq_true] at hbody
      obtain ⟨huk, hall⟩ := hbody
      rw [hs']
      simp only [sectionOutcome]
      have harr : ∃ nm ks, v = some (.cont nm .array ks) := by
        unfold mode at hm
        rw [huk] at hm
        split at hm
        · cases hm
        · cases hm
        · cases hm
        · simp at hm
        · rename_i nm ks; exact ⟨nm, ks, rfl⟩
      obtain ⟨nm, ks, rfl⟩ := harr
      have hu : Under (some (.cont nm .array ks) :: a) b := by
        obtain ⟨h1, l, rfl⟩ := h
        exact ⟨h1, (nm, ks) :: l, rfl⟩
      have hfe : ∀ its : List (Bytes × Elem), (∀ x ∈ its, body.calm true (some x.2 :: some (.cont nm .array ks) :: b) = true) →
          SameOut (some (.cont nm .array ks) :: a) (some (.cont nm .array ks) :: b)
          (forEach (fun k ss => body.eval env true s' (some k) ss) its (some (.cont nm .array ks) :: a))
          (forEach (fun k ss => body.eval env false s' (some k) ss) its (some (.cont nm .array ks) :: b)) := by
        intro its
        induction its with
        | nil => intro _; exact Or.inl ⟨_, rfl, rfl⟩
        | cons x its ih =>
          intro hx
          simp only [forEach]
          have := nested_same env h body (some x.2) [some (.cont nm .array ks)] (hx x (by simp)) s' (some x.1)
          simp only [List.cons_append, List.nil_append] at this
          rcases this with ⟨t, h1, h2⟩ | ⟨t, w, h1, h2⟩
          · rw [h1, h2]
            simp only [Outcome.andThen, List.tail_cons]
            rcases ih fun y hy => hx y (by simp [hy]) with ⟨t2, h3, h4⟩ | ⟨t2, w, h3, h4⟩
            · rw [h3, h4]; exact Or.inl ⟨_, rfl, rfl⟩
            · rw [h3, h4]; exact Or.inr ⟨_, _, rfl, rfl⟩
          · rw [h1, h2]; exact Or.inr ⟨_, _, rfl, rfl⟩
      rcases hfe items hall with ⟨t, h1, h2⟩ | ⟨t, w, h1, h2⟩
      · rw [h1, h2]
        exact Or.inl ⟨_, _, rfl, rfl, hu⟩
      · rw [h1, h2]
        exact Or.inr ⟨_, _, rfl, rfl⟩

/-! ## Data without lists -/

theorem listlessAll_mem {es : List Elem} (h : listlessAll es = true) : ∀ e ∈ es, listless e = true := by
  induction es with
  | nil => simp
  | cons a es ih =>
    rw [listlessAll, Bool.and_eq_true] at h
    intro e he
    rcases List.mem_cons.mp he with rfl | he
    · exact h.1
    · exact ih h.2 e he

theorem member_listless {k : Bytes} {e v : Elem} (h : listless e = true) (hm : member k e = some v) : listless v = true := by
  unfold member at hm
  split at hm
  · rw [listless] at h; exact listlessAll_mem h _ (List.mem_of_find?_eq_some hm)
  · cases hm

theorem resolve_listless {k : Bytes} {ss : Scopes} {v : Elem} (h : ∀ s ∈ ss, ∀ e, s = some e → listless e = true) (hr : resolve k ss = some v) : listless v = true := by
  induction ss with
  | nil => cases hr
  | cons s ss ih =>
    rw [resolve] at hr
    split at hr
    · rename_i w hw
      cases hr
      obtain ⟨e, he, hm⟩ := Option.bind_eq_some_iff.1 hw
      exact member_listless (h s (by simp) e he) hm
    · exact ih (fun s hs => h s (by simp [hs])) hr

theorem denote_listless {n : Bytes} {ss : Scopes} {v : Elem} (h : ∀ s ∈ ss, ∀ e, s = some e → listless e = true) (hr : denote ss n = some v) : listless v = true := by
  have hb : ∀ c v, base ss c = some v → listless v = true := by
    intro c v hv
    unfold base at hv
    split at hv
    · rename_i w hw; cases hv; exact resolve_listless h hw
    · split at hv
      · obtain ⟨s, hs, e⟩ := Option.bind_eq_some_iff.1 hv
        exact h s (List.mem_of_getLast? hs) v e
      · cases hv
  unfold denote at hr
  split at hr
  · exact hb _ _ hr
  · obtain ⟨w, hw, hf⟩ := Option.bind_eq_some_iff.1 hr
    have hl := hb _ _ hw
    clear hw hr
    rename_i c cs heq
    clear heq
    induction cs generalizing w with
    | nil => cases hf; exact hl
    | cons k cs ih =>
      rw [List.foldlM_cons] at hf
      obtain ⟨u, hu, hf⟩ := Option.bind_eq_some_iff.1 hf
      exact ih u hf (member_listless hl hu)

theorem plain_usesKey : ∀ {tpl : Tpl} {i : Bool}, tpl.plain i = true → tpl.usesKey = false := by
  intro tpl
  induction tpl with
  | nil => intro i _; rfl
  | text s rest ih => intro i h; exact ih h
  | var k n rest ih =>
    intro i h
    simp only [Tpl.plain, Bool.and_eq_true, bne_iff_ne, ne_eq] at h
    rw [Tpl.usesKey, ih h.2]
    have : n ≠ ⟨[], [64], []⟩ := by rintro rfl; exact h.1.1 rfl
    simp [this]
  | comment lay s rest ih => intro i h; exact ih h
  | «section» inv lay n body clay cl rest ihb ihr =>
    intro i h
    rw [Tpl.plain, Bool.and_eq_true] at h
    rw [Tpl.usesKey, ihb h.1, Bool.and_false]

theorem plain_calm : ∀ (tpl : Tpl) (i : Bool) (ss : Scopes), tpl.plain i = true → (∀ s ∈ ss, ∀ e, s = some e → listless e = true) → tpl.calm i ss = true := by
  intro tpl
  induction tpl with
  | nil => intro i ss _ _; rfl
  | text s rest ih => intro i ss h hs; exact ih i ss h hs
  | var k n rest ih =>
    intro i ss h hs
    simp only [Tpl.plain, Bool.and_eq_true] at h
    rw [Tpl.calm, ih i ss h.2 hs]
    cases i <;> simp_all
  | comment lay s rest ih => intro i ss h hs; exact ih i ss h hs
  | «section» inv lay n body clay cl rest ihb ihr =>
    intro i ss h hs
    rw [Tpl.plain, Bool.and_eq_true] at h
    rw [Tpl.calm, ihr i ss h.2 hs, Bool.and_true]
    have hb := ihb true (denote ss n.name :: ss) h.1 (by
      intro s hm e he
      rcases List.mem_cons.mp hm with rfl | hm
      · exact denote_listless hs he
      · exact hs s hm e he)
    cases hm : mode false inv body (denote ss n.name) with
    | stop => rfl
    | once s => exact hb
    | each items s =>
      exfalso
      unfold mode at hm
      rw [plain_usesKey h.1] at hm
      split at hm
      · cases hm
      · cases hm
      · cases hm
      · simp at hm
      · rename_i nm ks hd
        have := denote_listless hs hd
        rw [listless, List.isEmpty_iff] at this
        simp [this] at hm

end Mustache
