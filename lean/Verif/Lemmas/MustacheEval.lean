import Verif.Lemmas.MustacheTree
import Verif.Props.JsonOps
/-! # Rendering a template tree -/
namespace Mustache
open Json (Bytes Elem)
open MustacheSpec

/-- The values on the stack. -/
def vals (root : Elem) (stack : List (Option Path)) : Scopes := stack.map fun o => o.bind (get root)

/-! ## Names -/

theorem lookupBase_eq {root : Elem} (hw : WF root) (k : Bytes) : ∀ stack : List (Option Path), (∀ p, some p ∈ stack → (get root p).isSome) →
    ∃ r, lookupBase root k stack = some r ∧ r.bind (get root) = resolve k (vals root stack) ∧ ∀ p, r = some p → (get root p).isSome := by
  intro stack
  induction stack with
  | nil => intro _; exact ⟨none, rfl, rfl, by simp⟩
  | cons a st ih =>
    intro h
    obtain ⟨r, e1, e2, e3⟩ := ih fun p hp => h p (List.mem_cons_of_mem _ hp)
    cases a with
    | none => exact ⟨r, e1, e2, e3⟩
    | some p =>
      obtain ⟨v, hv⟩ := Option.isSome_iff_exists.mp (h p (by simp))
      have hvals : vals root (some p :: st) = some v :: vals root st := by simp [vals, hv]
      cases v with
      | prim n t x => exact ⟨r, by rw [lookupBase, hv]; exact e1, by rw [hvals, resolve]; exact e2, e3⟩
      | cont n ct ks =>
        cases ct with
        | array => exact ⟨r, by rw [lookupBase, hv]; exact e1, by rw [hvals, resolve]; exact e2, e3⟩
        | object =>
          have hwv := wf_object.mp (get_wf hw hv)
          cases hf : ks.find? (fun c => c.name == some k) with
          | none =>
            refine ⟨r, ?_, ?_, e3⟩
            · rw [lookupBase, hv]
              simp only [jsonGet_eq k hwv.2.2, hf, Option.bind_eq_bind, Option.bind_some]
              exact e1
            · rw [hvals, resolve]
              simp only [member, Option.bind_some, hf]
              exact e2
          | some c =>
            have hg : get root (p ++ [.key k]) = some c := by rw [get_append, hv]; simp [get, child, hf]
            refine ⟨some (p ++ [.key k]), ?_, ?_, ?_⟩
            · rw [lookupBase, hv]
              simp only [jsonGet_eq k hwv.2.2, hf, Option.bind_eq_bind, Option.bind_some]
            · rw [hvals, resolve]
              simp only [member, Option.bind_some, hf, hg]
            · intro q hq; cases hq; rw [hg]; rfl

theorem tokens_congr {p q : UInt8 → Bool} {s : Bytes} (h : ∀ c ∈ s, p c = q c) : TokenSpec.tokens p s = TokenSpec.tokens q s := by
  have : TokenSpec.pieces p s = TokenSpec.pieces q s := by
    induction s with
    | nil => rfl
    | cons c s ih =>
      simp only [TokenSpec.pieces]
      rw [h c (by simp), ih fun c hc => h c (by simp [hc])]
  rw [TokenSpec.tokens, TokenSpec.tokens, this]

theorem tokens_dot {name : Bytes} (h0 : (0 : UInt8) ∉ name) : TokenSpec.tokens (fun c => c == 0 || [46].contains c) name = TokenSpec.tokens (· == 46) name := by
  apply tokens_congr
  intro c hc
  have : (c == 0) = false := by rw [beq_eq_false_iff_ne]; exact fun e => h0 (e ▸ hc)
  rw [this, Bool.eq_iff_iff]
  simp

theorem comp_eq {name : Bytes} (h0 : (0 : UInt8) ∉ name) (i : Nat) : comp name i = (TokenSpec.tokens (· == 46) name)[i]?.getD [] := by
  unfold comp
  by_cases hi : i < Str.countTokens name [46]
  · obtain ⟨off, len, h1, h2, h3⟩ := C41_getToken name [46] i hi
    rw [tokens_dot h0] at h3
    rw [h1, h3]
    rfl
  · rw [C41_getToken_null name [46] i (by omega)]
    rw [C41_countTokens, tokens_dot h0] at hi
    rw [List.getElem?_eq_none (by omega)]
    rfl

theorem lookupRest_eq {root : Elem} (hw : WF root) {name : Bytes} (h0 : (0 : UInt8) ∉ name) : ∀ n i p v, i + n = (TokenSpec.tokens (· == 46) name).length → get root p = some v →
    ∃ r, lookupRest root name n i p = some r ∧ r.bind (get root) = ((TokenSpec.tokens (· == 46) name).drop i).foldlM (fun v k => member k v) v ∧
      ∀ p, r = some p → (get root p).isSome := by
  intro n
  induction n with
  | zero =>
    intro i p v hi hp
    refine ⟨some p, rfl, ?_, by intro q hq; cases hq; rw [hp]; rfl⟩
    rw [List.drop_of_length_le (by omega)]
    simpa using hp
  | succ n ih =>
    intro i p v hi hp
    have hlt : i < (TokenSpec.tokens (· == 46) name).length := by omega
    have hc : comp name i = (TokenSpec.tokens (· == 46) name)[i] := by rw [comp_eq h0, List.getElem?_eq_getElem hlt]; rfl
    rw [List.drop_eq_getElem_cons hlt, List.foldlM_cons, ← hc, lookupRest, hp]
    cases v with
    | prim => exact ⟨none, rfl, rfl, by simp⟩
    | cont nm ct ks =>
      cases ct with
      | array => exact ⟨none, rfl, rfl, by simp⟩
      | object =>
        have hwv := wf_object.mp (get_wf hw hp)
        cases hf : ks.find? (fun c => c.name == some (comp name i)) with
        | none =>
          refine ⟨none, ?_, ?_, by simp⟩
          · simp only [jsonGet_eq _ hwv.2.2, hf, Option.bind_eq_bind, Option.bind_some]
          · simp [member, hf]
        | some c =>
          have hg : get root (p ++ [.key (comp name i)]) = some c := by rw [get_append, hp]; simp [get, child, hf]
          obtain ⟨r, e1, e2, e3⟩ := ih (i + 1) (p ++ [.key (comp name i)]) c (by omega) hg
          refine ⟨r, ?_, ?_, e3⟩
          · simp only [jsonGet_eq _ hwv.2.2, hf, Option.bind_eq_bind, Option.bind_some]
            exact e1
          · rw [e2]; simp [member, hf]

theorem litTop_eq : litTop = MustacheSpec.top := by decide +kernel

theorem getLast_vals (root : Elem) (stack : List (Option Path)) : (vals root stack).getLast?.join = (stack.getLast?.join).bind (get root) := by
  unfold vals
  rw [List.getLast?_map]
  cases h : stack.getLast? with
  | none => rfl
  | some o => cases o <;> rfl

theorem lookupVariable_eq {st : St} (hw : WF st.root) (hs : ∀ p, some p ∈ st.stack → (get st.root p).isSome) (hne : st.stack ≠ []) {name : Bytes} (h0 : (0 : UInt8) ∉ name) :
    ∃ r, lookupVariable st name = some r ∧ r.bind (get st.root) = denote (vals st.root st.stack) name ∧ ∀ p, r = some p → (get st.root p).isSome := by
  unfold lookupVariable
  rw [if_neg hne]
  obtain ⟨r, e1, e2, e3⟩ := lookupBase_eq hw (comp name 0) st.stack hs
  have hb : ∃ r, baseVar st (comp name 0) = some r ∧ (∀ p, r = some p → (get st.root p).isSome) ∧ r.bind (get st.root) = base (vals st.root st.stack) (comp name 0) := by
    unfold baseVar base
    simp only [e1, Option.bind_eq_bind, Option.bind_some]
    cases r with
    | some p =>
      obtain ⟨v, hv⟩ := Option.isSome_iff_exists.mp (e3 p rfl)
      refine ⟨_, rfl, e3, ?_⟩
      rw [← e2]
      simp [hv]
    | none =>
      rw [← e2, litTop_eq]
      simp only [Option.bind_none]
      by_cases ht : comp name 0 = MustacheSpec.top
      · rw [if_pos ht, if_pos ht]
        refine ⟨_, rfl, ?_, (getLast_vals _ _).symm⟩
        intro p hp
        apply hs
        cases hl : st.stack.getLast? with
        | none => rw [hl] at hp; cases hp
        | some o =>
          rw [hl] at hp
          simp only [Option.join_some] at hp
          subst hp
          exact List.mem_of_getLast? hl
      · rw [if_neg ht, if_neg ht]
        exact ⟨none, rfl, by simp, rfl⟩
  obtain ⟨b, b1, b2, b3⟩ := hb
  simp only [b1, Option.bind_eq_bind, Option.bind_some]
  rw [C41_countTokens, tokens_dot h0]
  have hc0 := comp_eq h0 0
  unfold denote
  cases htk : TokenSpec.tokens (· == 46) name with
  | nil =>
    rw [htk] at hc0
    simp only [List.getElem?_nil, Option.getD_none] at hc0
    rw [hc0] at b3
    cases b with
    | none => exact ⟨none, rfl, b3, by simp⟩
    | some p => exact ⟨some p, rfl, b3, b2⟩
  | cons c cs =>
    rw [htk] at hc0
    simp only [List.getElem?_cons_zero, Option.getD_some] at hc0
    rw [hc0] at b3
    simp only
    rw [← b3]
    cases b with
    | none => exact ⟨none, rfl, rfl, by simp⟩
    | some p =>
      obtain ⟨v, hv⟩ := Option.isSome_iff_exists.mp (b2 p rfl)
      obtain ⟨r, r1, r2, r3⟩ := lookupRest_eq hw h0 cs.length 1 p v (by rw [htk]; simp; omega) hv
      refine ⟨r, by simpa using r1, ?_, r3⟩
      rw [r2, htk]
      simp [hv]

/-! ## Variables -/

theorem html_eq (s : Bytes) : html s = escape s := by
  induction s with
  | nil => rfl
  | cons c s ih =>
    rw [html, ih, show escape (c :: s) = entity c ++ escape s from List.flatMap_cons]
    congr 1
    exact Str.byte_all (P := fun c => (if c = 38 then [38, 97, 109, 112, 59] else if c = 34 then [38, 113, 117, 111, 116, 59] else if c = 60 then [38, 108, 116, 59]
      else if c = 62 then [38, 103, 116, 59] else [c]) = entity c) (by decide +kernel) c

/-- The outcome of a variable. -/
def toVarRes : Except Stop Bytes → VarRes
  | .ok x => .ok x
  | .error .fail => .fail
  | .error .abort => .abort
  | .error .exit => .exit

/-- The serialisations of the containers in the data are as given, and leave it alone. -/
def Stable (env : Env) (root : Elem) : Prop := ∀ p n ct ks, get root p = some (.cont n ct ks) →
  Json.jsonWrite 0 (.cont n ct ks) = some (env.pretty (.cont n ct ks), .cont n ct ks) ∧ Json.writeCompact (.cont n ct ks) = some (env.compact (.cont n ct ks), .cont n ct ks)

theorem setKey_same {k : Bytes} {c : Elem} {ks : List Elem} (h : (ks.find? fun c => c.name == some k) = some c) : setKey k c ks = ks := by
  induction ks with
  | nil => rfl
  | cons a ks ih =>
    rw [List.find?_cons] at h
    rw [setKey]
    cases ha : (a.name == some k) with
    | true => rw [ha] at h; cases h; rfl
    | false => rw [ha] at h; simp only [Bool.false_eq_true, if_false]; rw [ih h]

theorem put_get {root v : Elem} {p : Path} (h : get root p = some v) : put root p v = root := by
  induction p generalizing root with
  | nil => rw [get] at h; cases h; rfl
  | cons s p ih =>
    rw [get] at h
    cases hc : child root s with
    | none => rw [hc] at h; cases h
    | some c =>
      rw [hc, Option.bind_some] at h
      have hi := ih h
      cases root with
      | prim => cases s <;> cases hc
      | cont n ct ks =>
        cases s with
        | key k =>
          cases ct with
          | array => cases hc
          | object =>
            simp only [child] at hc
            rw [put]
            simp only [hc]
            rw [hi, setKey_same hc]
        | idx i =>
          cases ct with
          | object => cases hc
          | array =>
            simp only [child] at hc
            rw [put]
            simp only [hc]
            rw [hi]
            congr 1
            obtain ⟨hlt, hc⟩ := List.getElem?_eq_some_iff.mp hc
            rw [← hc, List.set_getElem_self]

theorem litTrue_eq : Json.litTrue = "true".toUTF8.toList := by decide +kernel
theorem litFalse_eq : Json.litFalse = "false".toUTF8.toList := by decide +kernel

theorem beq_var (k : Kind) : (kindType k == TagType.var) = decide (k = .escaped) := by cases k <;> rfl

theorem renderPrimitive_eq {env : Env} {t : Json.PType} {v : Bytes} {esc : Bool} :
    renderPrimitive env.real t v esc none = some (toVarRes (primText env esc t v)) := by
  cases t with
  | string => simp only [renderPrimitive, primText, html_eq]; rfl
  | integer =>
    obtain ⟨r, hr⟩ := Str.stringToLong_total v
    simp only [renderPrimitive, primText, hr, Option.bind_some]
    cases r with
    | ok x => simp only [Json.intText_eq]; rfl
    | error x => rfl
  | real => rfl
  | bool => simp only [renderPrimitive, primText, litTrue_eq, litFalse_eq]; rfl
  | null => rfl

theorem renderElem_eq {env : Env} {root : Elem} {p : Path} {k : Kind} {item : Bool} {v : Elem} (hst : k = .pretty ∨ k = .compact → Stable env root) (hv : get root p = some v) :
    renderElem env.real root p (kindType k) item none = some (toVarRes (elemText env k (if item then .error .fail else .error .abort) v), root) := by
  unfold renderElem
  rw [hv]
  cases v with
  | prim n t x =>
    simp only
    rw [beq_var, renderPrimitive_eq]
    rfl
  | cont n ct ks =>
    simp only
    cases k with
    | pretty =>
      have := (hst (Or.inl rfl) p n ct ks hv).1
      rw [if_pos (by rfl), this]
      simp only [Option.map_some, put_get hv]
      rfl
    | compact =>
      have := (hst (Or.inr rfl) p n ct ks hv).2
      rw [if_neg (by simp [kindType]), if_pos (by rfl), this]
      simp only [Option.map_some, put_get hv]
      rfl
    | escaped => cases item <;> rfl
    | amp => cases item <;> rfl
    | triple => cases item <;> rfl

theorem renderElem_key {env : Env} {root : Elem} {p : Path} {k : Kind} {item : Bool} {v : Elem} {key : Bytes} (hst : k = .pretty ∨ k = .compact → Stable env root)
    (hv : get root p = some v) :
    renderElem env.real root p (kindType k) item (some key) = some (toVarRes (keyText env k key v), root) := by
  unfold renderElem
  rw [hv]
  cases v with
  | prim n t x =>
    simp only
    rw [beq_var]
    simp only [renderPrimitive, html_eq, decide_eq_true_eq]
    rfl
  | cont n ct ks =>
    simp only
    cases k with
    | pretty =>
      have := (hst (Or.inl rfl) p n ct ks hv).1
      rw [if_pos (by rfl), this]
      simp only [Option.map_some, put_get hv]
      rfl
    | compact =>
      have := (hst (Or.inr rfl) p n ct ks hv).2
      rw [if_neg (by simp [kindType]), if_pos (by rfl), this]
      simp only [Option.map_some, put_get hv]
      rfl
    | escaped => simp [kindType, keyText, elemText, html_eq, toVarRes]
    | amp => simp [kindType, keyText, elemText, toVarRes]
    | triple => simp [kindType, keyText, elemText, toVarRes]

theorem head_vals {root : Elem} {a : Option Path} {l : List (Option Path)} : (vals root (a :: l)).head?.join = a.bind (get root) := by
  simp [vals]

theorem renderVariable_eq {env : Env} {st : St} (hw : WF st.root) (hs : ∀ p, some p ∈ st.stack → (get st.root p).isSome) (hne : st.stack ≠ []) {name : Bytes}
    (h0 : (0 : UInt8) ∉ name) (hn : name ≠ []) {k : Kind} (hst : k = .pretty ∨ k = .compact → Stable env st.root) (key : Option Bytes) :
    renderVariable env.real st name (kindType k) key = some (toVarRes (varText env (vals st.root st.stack) key k name), st.root) := by
  obtain ⟨a, l, hl⟩ : ∃ a l, st.stack = a :: l := List.exists_cons_of_ne_nil hne
  unfold renderVariable varText
  rw [if_neg hn]
  by_cases hat : name = [64]
  · subst hat
    have hv : varOf st [64] = some a := by rw [varOf, if_pos (Or.inr rfl), hl]; rfl
    simp only [hv, Option.bind_eq_bind, Option.bind_some, if_true]
    cases key with
    | none => rfl
    | some key =>
      simp only [Option.isNone_some, Bool.and_false, Bool.false_eq_true, if_false, hl, head_vals]
      cases a with
      | none => rfl
      | some p =>
        obtain ⟨v, hv⟩ := Option.isSome_iff_exists.mp (hs p (by rw [hl]; simp))
        have := renderElem_key (item := false) (key := key) hst hv
        simp only [Option.bind_some, hv]
        rw [show (([64] : Bytes) == [46]) = false from rfl, show (([64] : Bytes) == [64]) = true from rfl]
        simp only [if_true]
        rw [this]
  · have hka : (name == [64]) = false := by rw [beq_eq_false_iff_ne]; exact hat
    rw [if_neg hat]
    simp only [hka, Bool.false_and, Bool.false_eq_true, if_false]
    by_cases hdot : name = [46]
    · subst hdot
      have hv : varOf st [46] = some a := by rw [varOf, if_pos (Or.inl rfl), hl]; rfl
      simp only [hv, Option.bind_eq_bind, Option.bind_some, if_true, hl, head_vals]
      cases a with
      | none => rfl
      | some p =>
        obtain ⟨v, hv⟩ := Option.isSome_iff_exists.mp (hs p (by rw [hl]; simp))
        simp only [Option.bind_some, hv]
        rw [show (([46] : Bytes) == [46]) = true from rfl, renderElem_eq hst hv]
        rfl
    · have hd : (name == [46]) = false := by rw [beq_eq_false_iff_ne]; exact hdot
      obtain ⟨r, r1, r2, r3⟩ := lookupVariable_eq hw hs hne h0
      have hv : varOf st name = some r := by rw [varOf, if_neg (by simp [hdot, hat])]; exact r1
      simp only [hv, Option.bind_eq_bind, Option.bind_some, if_neg hdot, hd]
      rw [← r2]
      cases r with
      | none => rfl
      | some p =>
        obtain ⟨v, hv⟩ := Option.isSome_iff_exists.mp (r3 p rfl)
        simp only [Option.bind_some, hv]
        rw [renderElem_eq hst hv]
        rfl

/-! ## More steps than needed -/

theorem iterate_mono {g g' : St → Bytes → Option Res} (hg : ∀ st k r, g st k = some r → g' st k = some r) {p : Path} : ∀ n i st se r,
    iterate g p n i st se = some r → iterate g' p n i st se = some r := by
  intro n
  induction n with
  | zero => intro i st se r h; exact h
  | succ n ih =>
    intro i st se r h
    rw [iterate] at h ⊢
    cases hv : get st.root p with
    | none => rw [hv] at h; cases h
    | some v =>
      rw [hv] at h
      cases v with
      | prim => cases h
      | cont nm ct ks =>
        cases ct with
        | object =>
          simp only [Option.bind_eq_bind, Option.bind_eq_some_iff] at h ⊢
          obtain ⟨c, h1, k, h2, r1, h3, h4⟩ := h
          refine ⟨c, h1, k, h2, r1, hg _ _ _ h3, ?_⟩
          cases r1 <;> first | exact ih _ _ _ _ h4 | exact h4
        | array =>
          simp only [Option.bind_eq_bind, Option.bind_eq_some_iff] at h ⊢
          obtain ⟨r1, h3, h4⟩ := h
          refine ⟨r1, hg _ _ _ h3, ?_⟩
          cases r1 <;> first | exact ih _ _ _ _ h4 | exact h4

theorem render_mono (rt : RealText) (t : Bytes) : ∀ fuel st input key skip sec r, render rt t fuel st input key skip sec = some r →
    render rt t (fuel + 1) st input key skip sec = some r := by
  intro fuel
  induction fuel with
  | zero => intro st input key skip sec r h; cases h
  | succ fuel ih =>
    intro st input key skip sec r h
    cases input with
    | none => exact h
    | some input =>
      rw [render] at h ⊢
      simp only [Option.bind_eq_bind, Option.bind_eq_some_iff] at h ⊢
      obtain ⟨tag, h1, b, h2, bf, h3, h4⟩ := h
      refine ⟨tag, h1, b, h2, bf, h3, ?_⟩
      have hsec : ∀ (inv : Bool) (r : Res), (∃ var, lookupVariable { st with out := st.out ++ bf } (List.take tag.len (List.drop tag.content t)) = some var ∧
          ∃ inp, b.2 = some inp ∧ ∃ pl, plan t { st with out := st.out ++ bf, stack := var :: st.stack } inp inv skip var = some pl ∧
            (match pl with
            | .fail => some (Res.fail { st with out := st.out ++ bf, stack := var :: st.stack })
            | .overflow => some (.overflow { st with out := st.out ++ bf, stack := var :: st.stack })
            | .once skip' => (render rt t fuel { st with out := st.out ++ bf, stack := var :: st.stack } (some inp) none skip' true).bind fun r => match r with
              | .ok st se => render rt t fuel st se key skip sec
              | r => some r
            | .each p n skip' => (iterate (fun st k => render rt t fuel st (some inp) (some k) skip' true) p n 0 { st with out := st.out ++ bf, stack := var :: st.stack } none).bind
                fun r => match r with
              | .ok st se => render rt t fuel st se key skip sec
              | r => some r) = some r) →
          (∃ var, lookupVariable { st with out := st.out ++ bf } (List.take tag.len (List.drop tag.content t)) = some var ∧
          ∃ inp, b.2 = some inp ∧ ∃ pl, plan t { st with out := st.out ++ bf, stack := var :: st.stack } inp inv skip var = some pl ∧
            (match pl with
            | .fail => some (Res.fail { st with out := st.out ++ bf, stack := var :: st.stack })
            | .overflow => some (.overflow { st with out := st.out ++ bf, stack := var :: st.stack })
            | .once skip' => (render rt t (fuel + 1) { st with out := st.out ++ bf, stack := var :: st.stack } (some inp) none skip' true).bind fun r => match r with
              | .ok st se => render rt t (fuel + 1) st se key skip sec
              | r => some r
            | .each p n skip' => (iterate (fun st k => render rt t (fuel + 1) st (some inp) (some k) skip' true) p n 0 { st with out := st.out ++ bf, stack := var :: st.stack } none).bind
                fun r => match r with
              | .ok st se => render rt t (fuel + 1) st se key skip sec
              | r => some r) = some r) := by
        rintro inv r ⟨var, a1, inp, a2, pl, a3, a4⟩
        refine ⟨var, a1, inp, a2, pl, a3, ?_⟩
        cases pl with
        | fail => exact a4
        | overflow => exact a4
        | once skip' =>
          simp only [Option.bind_eq_some_iff] at a4 ⊢
          obtain ⟨r1, c1, c2⟩ := a4
          refine ⟨r1, ih _ _ _ _ _ _ c1, ?_⟩
          cases r1 <;> first | exact ih _ _ _ _ _ _ c2 | exact c2
        | each p n skip' =>
          simp only [Option.bind_eq_some_iff] at a4 ⊢
          obtain ⟨r1, c1, c2⟩ := a4
          refine ⟨r1, iterate_mono (fun st k r h => ih _ _ _ _ _ _ h) _ _ _ _ _ c1, ?_⟩
          cases r1 <;> first | exact ih _ _ _ _ _ _ c2 | exact c2
      have hvar : ∀ (conv : TagType) (r : Res), (if skip = true then render rt t fuel { st with out := st.out ++ bf } b.2 key skip sec
          else if (List.take tag.len (List.drop tag.content t)).length > 0 then
            (renderVariable rt { st with out := st.out ++ bf } (List.take tag.len (List.drop tag.content t)) conv key).bind fun r =>
              match r.1 with
              | .ok text => render rt t fuel { st with out := st.out ++ bf ++ text, root := r.2 } b.2 key skip sec
              | .fail => some (.fail { st with out := st.out ++ bf, root := r.2 })
              | .abort => some (.abort { st with out := st.out ++ bf, root := r.2 })
              | .exit => some (.exit { st with out := st.out ++ bf, root := r.2 })
          else render rt t fuel { st with out := st.out ++ bf ++ st.ds ++ st.de } b.2 key skip sec) = some r →
          (if skip = true then render rt t (fuel + 1) { st with out := st.out ++ bf } b.2 key skip sec
          else if (List.take tag.len (List.drop tag.content t)).length > 0 then
            (renderVariable rt { st with out := st.out ++ bf } (List.take tag.len (List.drop tag.content t)) conv key).bind fun r =>
              match r.1 with
              | .ok text => render rt t (fuel + 1) { st with out := st.out ++ bf ++ text, root := r.2 } b.2 key skip sec
              | .fail => some (.fail { st with out := st.out ++ bf, root := r.2 })
              | .abort => some (.abort { st with out := st.out ++ bf, root := r.2 })
              | .exit => some (.exit { st with out := st.out ++ bf, root := r.2 })
          else render rt t (fuel + 1) { st with out := st.out ++ bf ++ st.ds ++ st.de } b.2 key skip sec) = some r := by
        intro conv r h
        split at h
        · rename_i hk; rw [if_pos hk]; exact ih _ _ _ _ _ _ h
        · rename_i hk
          rw [if_neg hk]
          split at h
          · rename_i hl
            rw [if_pos hl]
            simp only [Option.bind_eq_some_iff] at h ⊢
            obtain ⟨r1, c1, c2⟩ := h
            refine ⟨r1, c1, ?_⟩
            cases hr : r1.1 <;> rw [hr] at c2 <;> first | exact ih _ _ _ _ _ _ c2 | exact c2
          · rename_i hl
            rw [if_neg hl]
            exact ih _ _ _ _ _ _ h
      cases ht : tag.type <;> simp only [ht] at h4 ⊢
      case err => exact h4
      case none => exact h4
      case comment => exact ih _ _ _ _ _ _ h4
      case delim =>
        cases hd : setDelimiters (List.take tag.len (List.drop tag.content t)) <;> rw [hd] at h4 <;> first | exact ih _ _ _ _ _ _ h4 | exact h4
      case sectionEnd => exact h4
      case «section» =>
        simp only [Option.bind_eq_some_iff] at h4 ⊢
        exact hsec false r h4
      case inverted =>
        simp only [Option.bind_eq_some_iff] at h4 ⊢
        exact hsec true r h4
      case var => exact hvar .var r h4
      case varUnescaped => exact hvar .varUnescaped r h4
      case varSerialized => exact hvar .varSerialized r h4
      case varSerializedCompact => exact hvar .varSerializedCompact r h4

theorem render_mono_le (rt : RealText) (t : Bytes) {fuel fuel' : Nat} (h : fuel ≤ fuel') {st : St} {input : Option Nat} {key : Option Bytes} {skip sec : Bool} {r : Res}
    (hr : render rt t fuel st input key skip sec = some r) : render rt t fuel' st input key skip sec = some r := by
  induction h with
  | refl => exact hr
  | step _ ih => exact render_mono _ _ _ _ _ _ _ _ _ ih

/-! ## The tree -/

/-- The renderer comes to a result. -/
def Runs (rt : RealText) (t : Bytes) (st : St) (input : Nat) (key : Option Bytes) (skip sec : Bool) (r : Res) : Prop :=
  ∃ fuel, render rt t fuel st (some input) key skip sec = some r

/-- The state between tags: the data unchanged, the usual delimiters. -/
structure Live (root : Elem) (st : St) : Prop where
  data : st.root = root
  ds : st.ds = [123, 123]
  de : st.de = [125, 125]
  stack : ∀ p, some p ∈ st.stack → (get root p).isSome

def resOf : Stop → St → Res
  | .fail => .fail
  | .abort => .abort
  | .exit => .exit

/-- What is seen of a text. -/
def seen (skip : Bool) (s : Bytes) : Bytes := if skip then [] else s

theorem seen_append (skip : Bool) (a b : Bytes) : seen skip (a ++ b) = seen skip a ++ seen skip b := by cases skip <;> rfl

/-- The body of a section up to and with its closing tag. -/
def BodyOK (rt : RealText) (t : Bytes) (root : Elem) (nx e : Nat) (skip : Bool) (ev : Option Bytes → Scopes → Outcome) : Prop :=
  ∀ st key, Live root st → 2 ≤ st.stack.length → match ev key (vals root st.stack) with
    | .ok text ss => ∃ st', Runs rt t st nx key skip true (.ok st' (some e)) ∧ Live root st' ∧ st'.out = st.out ++ text ∧ vals root st'.stack = ss.tail ∧
        st.stack.length ≤ st'.stack.length + 1
    | .stop text w => ∃ st', Runs rt t st nx key skip true (resOf w st') ∧ st'.out = st.out ++ text

theorem contentBytes_seen {t pre acc post : Bytes} {skip : Bool} (ht : t = pre ++ acc ++ post) : contentBytes t pre.length skip (some (pre.length + acc.length)) = some (seen skip acc) := by
  rw [contentBytes, if_neg (by omega), ht, List.append_assoc, List.drop_left, Nat.add_sub_cancel_left, List.take_left]
  rfl

theorem iterate_stop {g : St → Bytes → Option Res} {w : Stop} {st st' : St} {k : Bytes} {f : St → Option Nat → Option Res} (h : g st k = some (resOf w st')) :
    ((g st k).bind fun r => match r with
      | .ok st se => f st se
      | r => some r) = some (resOf w st') := by
  rw [h, Option.bind_some]
  cases w <;> rfl

theorem iterate_tree {rt : RealText} {t : Bytes} {root : Elem} (hw : WF root) {nx e : Nat} {skip : Bool} {ev : Option Bytes → Scopes → Outcome}
    (hb : BodyOK rt t root nx e skip ev) {p : Path} {nm : Option Bytes} {ct : Json.CType} {ks : List Elem} (hp : get root p = some (.cont nm ct ks)) : ∀ n i st se,
    i + n = ks.length → Live root st → 1 ≤ st.stack.length →
    match forEach (fun k ss => ev (some k) ss) ((match ct with | .object => named ks | .array => numbered ks).drop i) (vals root st.stack) with
    | .ok text ss => ∃ fuel st', iterate (fun st k => render rt t fuel st (some nx) (some k) skip true) p n i st se = some (.ok st' (if n = 0 then se else some e)) ∧
        Live root st' ∧ st'.out = st.out ++ text ∧ vals root st'.stack = ss ∧ st.stack.length ≤ st'.stack.length
    | .stop text w => ∃ fuel st', iterate (fun st k => render rt t fuel st (some nx) (some k) skip true) p n i st se = some (resOf w st') ∧ st'.out = st.out ++ text := by
  intro n
  induction n with
  | zero =>
    intro i st se hi hl _
    rw [List.drop_of_length_le (by cases ct <;> simp [named, numbered] <;> omega)]
    exact ⟨0, st, rfl, hl, by simp, rfl, Nat.le_refl _⟩
  | succ n ih =>
    intro i st se hi hl hlen
    have hlt : i < ks.length := by omega
    have hp0 : get st.root p = some (.cont nm ct ks) := by rw [hl.data]; exact hp
    -- the next item
    have hitem : ∃ key q, (match ct with | .object => named ks | .array => numbered ks).drop i =
          (key, ks[i]) :: (match ct with | .object => named ks | .array => numbered ks).drop (i + 1) ∧
        get root q = some ks[i] ∧
        ∀ g : St → Bytes → Option Res, iterate g p (n + 1) i st se = ((g { st with stack := some q :: st.stack } key).bind fun r => match r with
          | .ok st se' => iterate g p n (i + 1) st (se'.or se)
          | r => some r) := by
      cases ct with
      | object =>
        have hwv := wf_object.mp (get_wf hw hp)
        obtain ⟨k, hk⟩ := hwv.2.2 ks[i] (List.getElem_mem hlt)
        refine ⟨k, p ++ [.key k], ?_, ?_, ?_⟩
        · simp only
          rw [List.drop_eq_getElem_cons (by simpa [named] using hlt)]
          simp [named, hk]
        · rw [get_append, hp]
          have : (ks.find? fun c => c.name == some k) = some ks[i] := (find_key hwv.2.1 k _).mpr ⟨List.getElem_mem hlt, hk⟩
          simp [get, child, this]
        · intro g
          rw [iterate, hp0]
          simp only [List.getElem?_eq_getElem hlt, hk, Option.bind_eq_bind, Option.bind_some]
          congr 1
      | array =>
        refine ⟨NumSpec.decimal i, p ++ [.idx i], ?_, ?_, ?_⟩
        · simp only
          rw [List.drop_eq_getElem_cons (by simpa [numbered] using hlt)]
          simp [numbered]
        · rw [get_append, hp]
          simp [get, child, List.getElem?_eq_getElem hlt]
        · intro g
          rw [iterate, hp0, NumSpec.natText_eq]
          simp only [Option.bind_eq_bind]
          congr 1
    obtain ⟨key, q, h1, h2, h3⟩ := hitem
    rw [h1, forEach]
    have hl1 : Live root { st with stack := some q :: st.stack } := ⟨hl.data, hl.ds, hl.de, by
      intro p' hp'
      rcases List.mem_cons.mp hp' with e | hp'
      · cases e; rw [h2]; rfl
      · exact hl.stack p' hp'⟩
    have hb1 := hb { st with stack := some q :: st.stack } (some key) hl1 (by simp; omega)
    have hv : vals root (some q :: st.stack) = some ks[i] :: vals root st.stack := by simp [vals, h2]
    simp only [hv] at hb1
    cases hev : ev (some key) (some ks[i] :: vals root st.stack) with
    | stop text w =>
      simp only [hev] at hb1
      obtain ⟨st', ⟨fuel, b1⟩, b2⟩ := hb1
      simp only [Outcome.andThen]
      exact ⟨fuel, st', by rw [h3]; exact iterate_stop (g := fun st k => render rt t fuel st (some nx) (some k) skip true) b1, b2⟩
    | ok text ss =>
      simp only [hev] at hb1
      obtain ⟨st', ⟨fuel, b1⟩, b2, b3, b4, b5⟩ := hb1
      simp only [List.length_cons] at b5
      have hi' := ih (i + 1) st' (some e) (by omega) b2 (by omega)
      rw [b4] at hi'
      simp only [Outcome.andThen]
      cases hfe : forEach (fun k ss => ev (some k) ss) ((match ct with | .object => named ks | .array => numbered ks).drop (i + 1)) ss.tail with
      | stop text2 w =>
        simp only [hfe] at hi'
        obtain ⟨fuel2, st2, c1, c2⟩ := hi'
        refine ⟨max fuel fuel2, st2, ?_, by rw [c2, b3, List.append_assoc]⟩
        rw [h3, render_mono_le rt t (Nat.le_max_left fuel fuel2) b1, Option.bind_some]
        exact iterate_mono (fun st k r h => render_mono_le rt t (Nat.le_max_right fuel fuel2) h) _ _ _ _ _ c1
      | ok text2 ss2 =>
        simp only [hfe] at hi'
        obtain ⟨fuel2, st2, c1, c2, c3, c4, c5⟩ := hi'
        refine ⟨max fuel fuel2, st2, ?_, c2, by rw [c3, b3, List.append_assoc], c4, by omega⟩
        rw [h3, render_mono_le rt t (Nat.le_max_left fuel fuel2) b1, Option.bind_some]
        have := iterate_mono (fun st k r h => render_mono_le rt t (Nat.le_max_right fuel fuel2) h) _ _ _ _ _ c1
        rw [if_neg (by omega)]
        simpa using this

/-- The decisions at a section tag are the specification's. -/
theorem plan_eq {t : Bytes} {root : Elem} {st : St} (hl : Live root st) {input : Nat} {body : Tpl}
    (hit : shouldIterate t (t.length + 1) input [123, 123] [125, 125] = some (some body.usesKey)) (inv skip : Bool) (var : Option Path) (hv : ∀ p, var = some p → (get root p).isSome) :
    plan t st input inv skip var = some (match mode skip inv body (var.bind (get root)) with
      | .stop => .fail
      | .once s => .once s
      | .each items s => .each (var.getD []) items.length s) ∧
    ∀ items s, mode skip inv body (var.bind (get root)) = .each items s → ∃ p nm ct ks, var = some p ∧ get root p = some (.cont nm ct ks) ∧ ks ≠ [] ∧
      items = (match ct with | .object => named ks | .array => numbered ks) := by
  cases var with
  | none => exact ⟨rfl, by simp [mode]⟩
  | some p =>
    obtain ⟨v, hv⟩ := Option.isSome_iff_exists.mp (hv p rfl)
    unfold plan
    simp only [hl.data, hv, Option.bind_some]
    cases v with
    | prim n ty x =>
      cases ty with
      | bool =>
        refine ⟨?_, by simp [mode]⟩
        simp only [mode, litTrue_eq]
        congr 2
        by_cases hx : x = "true".toUTF8.toList
        · rw [decide_eq_true hx, show (x == "true".toUTF8.toList) = true by rw [hx]; exact beq_self_eq_true _]; cases skip <;> cases inv <;> rfl
        · rw [decide_eq_false hx, show (x == "true".toUTF8.toList) = false by rw [beq_eq_false_iff_ne]; exact hx]; cases skip <;> cases inv <;> rfl
      | string => exact ⟨rfl, by simp [mode]⟩
      | integer => exact ⟨rfl, by simp [mode]⟩
      | real => exact ⟨rfl, by simp [mode]⟩
      | null => exact ⟨rfl, by simp [mode]⟩
    | cont n ct ks =>
      cases ct with
      | array =>
        simp only [mode]
        cases ks with
        | nil => exact ⟨rfl, by simp⟩
        | cons a l =>
          refine ⟨by simp [numbered], ?_⟩
          intro items s he
          simp only [List.cons_ne_nil, if_false, Mode.each.injEq] at he
          exact ⟨p, n, .array, a :: l, rfl, hv, by simp, he.1.symm⟩
      | object =>
        simp only [mode, hl.ds, hl.de, hit, Option.bind_eq_bind, Option.bind_some]
        cases body.usesKey with
        | false => exact ⟨rfl, by simp⟩
        | true =>
          cases ks with
          | nil => exact ⟨rfl, by simp⟩
          | cons a l =>
            refine ⟨by simp [named], ?_⟩
            intro items s he
            simp only [if_true, List.cons_ne_nil, if_false, Mode.each.injEq] at he
            exact ⟨p, n, .object, a :: l, rfl, hv, by simp, he.1.symm⟩

theorem name_no_zero {t A B : Bytes} {n : Name} (h0 : (0 : UInt8) ∉ t) (ht : t = A ++ n.print ++ B) : (0 : UInt8) ∉ n.name := by
  intro hm
  exact h0 (by rw [ht]; simp [Name.print, hm])

/-- The closing tag. -/
theorem close_ok {rt : RealText} {t : Bytes} {root : Elem} (h0 : (0 : UInt8) ∉ t) {pre acc more : Bytes} {clay : Layout} {cl : Name}
    (ht : t = pre ++ acc ++ clay.print (closeTag cl) ++ more) (hacc : PlainText acc) (hclay : clay.wf (pre ++ acc) more) (hcl : cl.wf)
    {st : St} (hl : Live root st) (key : Option Bytes) (skip : Bool) :
    Runs rt t st pre.length key skip true (.ok { st with out := st.out ++ seen skip acc, stack := st.stack.tail } (some (pre.length + acc.length + (clay.print (closeTag cl)).length))) := by
  obtain ⟨lead, trail, co, l, e1, e2, e3, f1, f2, _⟩ := nextTag_lay (ty := .sectionEnd) h0 ht hacc (comment_of_not_mem (name_no_brace hcl)) rfl rfl hclay
  refine ⟨1, ?_⟩
  rw [render, show nextTag t pre.length st.ds st.de = nextTag t pre.length [123, 123] [125, 125] by rw [hl.ds, hl.de], f1]
  simp only [Option.bind_eq_bind, Option.bind_some, f2]
  rw [contentBytes_seen (post := clay.print (closeTag cl) ++ more) (by rw [ht]; simp)]
  simp [closeTag, hl.ds, hl.de]

/-- Rendering from a text pending before a tree. -/
def TreeOK (rt : RealText) (env : Env) (t : Bytes) (root : Elem) (tpl : Tpl) : Prop :=
  ∀ pre acc post st key skip sec, t = pre ++ acc ++ tpl.print ++ post → PlainText acc → tpl.wf (pre ++ acc) post → (tpl.serial = true → Stable env root) →
    Live root st → (if sec then 2 else 1) ≤ st.stack.length →
    match tpl.eval env true skip key (vals root st.stack) with
    | .ok text ss => ∃ pre' acc' st', pre' ++ acc' = pre ++ acc ++ tpl.print ∧ PlainText acc' ∧ Live root st' ∧ vals root st'.stack = ss ∧
        st.stack.length ≤ st'.stack.length ∧ st'.out ++ seen skip acc' = st.out ++ seen skip acc ++ text ∧
        ∀ r, Runs rt t st' pre'.length key skip sec r → Runs rt t st pre.length key skip sec r
    | .stop text w => ∃ st', Runs rt t st pre.length key skip sec (resOf w st') ∧ st'.out = st.out ++ seen skip acc ++ text

theorem body_ok {env : Env} {t : Bytes} {root : Elem} (h0 : (0 : UInt8) ∉ t) {body : Tpl} (hb : TreeOK env.real env t root body) {pre more : Bytes} {clay : Layout} {cl : Name}
    (ht : t = pre ++ body.print ++ clay.print (closeTag cl) ++ more) (hbw : body.wf pre (clay.print (closeTag cl) ++ more)) (hser : body.serial = true → Stable env root)
    (hclay : clay.wf (pre ++ body.print) more) (hcl : cl.wf) (skip : Bool) :
    BodyOK env.real t root pre.length (pre ++ body.print ++ clay.print (closeTag cl)).length skip (fun key ss => body.eval env true skip key ss) := by
  intro st key hl hlen
  have := hb pre [] (clay.print (closeTag cl) ++ more) st key skip true (by rw [ht]; simp) plain_nil (by simpa using hbw) hser hl (by simpa using hlen)
  simp only [List.append_nil] at this
  simp only
  cases hev : body.eval env true skip key (vals root st.stack) with
  | stop text w =>
    simp only [hev] at this
    obtain ⟨st', a1, a2⟩ := this
    exact ⟨st', a1, by rw [a2]; cases skip <;> simp [seen]⟩
  | ok text ss =>
    simp only [hev] at this
    obtain ⟨pre', acc', st', a1, a2, a3, a4, a5, a6, a7⟩ := this
    have hc := close_ok (rt := env.real) (root := root) (pre := pre') (acc := acc') (more := more) (clay := clay) (cl := cl) h0 (by rw [ht, ← a1]) a2 (by rw [a1]; exact hclay) hcl a3 key skip
    refine ⟨{ st' with out := st'.out ++ seen skip acc', stack := st'.stack.tail }, ?_, ⟨a3.data, a3.ds, a3.de, fun p hp => a3.stack p (List.mem_of_mem_tail hp)⟩, ?_, ?_, ?_⟩
    · have e : pre'.length + acc'.length + (clay.print (closeTag cl)).length = (pre ++ body.print ++ clay.print (closeTag cl)).length := by
        rw [← a1]; simp; omega
      rw [e] at hc
      exact a7 _ hc
    · rw [a6]; cases skip <;> simp [seen]
    · rw [← a4]; simp [vals]
    · simp only [List.length_tail]; omega

theorem tree_ok {env : Env} {t : Bytes} {root : Elem} (h0 : (0 : UInt8) ∉ t) (hw : WF root) : ∀ tpl : Tpl, TreeOK env.real env t root tpl := by
  intro tpl
  induction tpl with
  | nil =>
    intro pre acc post st key skip sec ht hacc _ _ hl _
    exact ⟨pre, acc, st, by simp [Tpl.print], hacc, hl, rfl, Nat.le_refl _, by simp, fun r h => h⟩
  | text s rest ih =>
    intro pre acc post st key skip sec ht hacc hwf hser hl hlen
    have := ih pre (acc ++ s) post st key skip sec (by rw [ht]; simp [Tpl.print]) (plain_append hacc hwf.1) (by rw [← List.append_assoc]; exact hwf.2) hser hl hlen
    simp only [Tpl.eval, Outcome.andThen]
    cases hev : rest.eval env true skip key (vals root st.stack) with
    | stop text w =>
      simp only [hev] at this ⊢
      obtain ⟨st', a1, a2⟩ := this
      exact ⟨st', a1, by rw [a2, seen_append]; simp [seen]⟩
    | ok text ss =>
      simp only [hev] at this ⊢
      obtain ⟨pre', acc', st', a1, a2, a3, a4, a5, a6, a7⟩ := this
      exact ⟨pre', acc', st', by rw [a1]; simp [Tpl.print], a2, a3, a4, a5, by rw [a6, seen_append]; simp [seen], a7⟩
  | comment lay s rest ih =>
    intro pre acc post st key skip sec ht hacc hwf hser hl hlen
    have ht' : t = pre ++ acc ++ lay.print (tag (33 :: s)) ++ (rest.print ++ post) := by rw [ht]; simp [Tpl.print]
    obtain ⟨lead, trail, co, l, e1, e2, e3, f1, f2, _⟩ := nextTag_lay (ty := .comment) h0 ht' hacc hwf.1 rfl rfl hwf.2.1
    have hstep : ∀ r, Runs env.real t { st with out := st.out ++ seen skip acc } (pre ++ acc ++ lay.print (tag (33 :: s))).length key skip sec r →
        Runs env.real t st pre.length key skip sec r := by
      rintro r ⟨fuel, hr⟩
      refine ⟨fuel + 1, ?_⟩
      rw [render, show nextTag t pre.length st.ds st.de = nextTag t pre.length [123, 123] [125, 125] by rw [hl.ds, hl.de], f1]
      simp only [Option.bind_eq_bind, Option.bind_some, f2]
      rw [contentBytes_seen (post := lay.print (tag (33 :: s)) ++ (rest.print ++ post)) (by rw [ht']; simp)]
      simp only [Option.bind_some]
      rw [← hr]
      simp [hl.ds, hl.de, Nat.add_assoc]
    have hl1 : Live root { st with out := st.out ++ seen skip acc } := ⟨hl.data, hl.ds, hl.de, hl.stack⟩
    have := ih (pre ++ acc ++ lay.print (tag (33 :: s))) [] post { st with out := st.out ++ seen skip acc } key skip sec (by rw [ht]; simp [Tpl.print]) plain_nil
      (by simpa using hwf.2.2) hser hl1 hlen
    simp only [Tpl.eval]
    cases hev : rest.eval env true skip key (vals root st.stack) with
    | stop text w =>
      simp only [hev] at this ⊢
      obtain ⟨st', a1, a2⟩ := this
      exact ⟨st', hstep _ a1, by rw [a2]; cases skip <;> simp [seen]⟩
    | ok text ss =>
      simp only [hev] at this ⊢
      obtain ⟨pre', acc', st', a1, a2, a3, a4, a5, a6, a7⟩ := this
      exact ⟨pre', acc', st', by rw [a1]; simp [Tpl.print], a2, a3, a4, a5, by rw [a6]; cases skip <;> simp [seen], fun r hr => hstep r (a7 r hr)⟩
  | var k n rest ih =>
    intro pre acc post st key skip sec ht hacc hwf hser hl hlen
    have ht' : t = pre ++ acc ++ k.print n.print ++ (rest.print ++ post) := by rw [ht]; simp [Tpl.print]
    obtain ⟨co, l, f1, f2⟩ := nextTag_var ht' hacc hwf.1 hwf.2.1
    have hz : (0 : UInt8) ∉ n.name := by
      intro hm
      have : (0 : UInt8) ∈ k.print n.print := by cases k <;> simp [Kind.print, tag, Name.print, hm]
      exact h0 (by rw [ht']; simp [this])
    have hbounds : bounds t (Tag.mk (kindType k) (some (pre.length + acc.length)) (some (pre.length + acc.length + (k.print n.print).length)) co l) =
        some (some (pre.length + acc.length), some (pre.length + acc.length + (k.print n.print).length)) := by
      cases k <;> rfl
    have hpre : (pre ++ acc ++ k.print n.print).length = pre.length + acc.length + (k.print n.print).length := by simp; omega
    have hne : st.stack ≠ [] := by intro he; rw [he] at hlen; split at hlen <;> simp at hlen
    have hstb : k = .pretty ∨ k = .compact → Stable env root := by
      intro hk
      apply hser
      rcases hk with rfl | rfl <;> simp [Tpl.serial]
    -- one step of the renderer
    have hstep : ∀ fuel, render env.real t (fuel + 1) st (some pre.length) key skip sec =
        if skip = true then render env.real t fuel { st with out := st.out ++ seen skip acc } (some (pre ++ acc ++ k.print n.print).length) key skip sec
        else match varText env (vals root st.stack) key k n.name with
          | .ok text => render env.real t fuel { st with out := st.out ++ seen skip acc ++ text } (some (pre ++ acc ++ k.print n.print).length) key skip sec
          | .error w => some (resOf w { st with out := st.out ++ seen skip acc }) := by
      intro fuel
      rw [render, show nextTag t pre.length st.ds st.de = nextTag t pre.length [123, 123] [125, 125] by rw [hl.ds, hl.de], f1]
      simp only [Option.bind_eq_bind, Option.bind_some, hbounds]
      rw [contentBytes_seen (post := k.print n.print ++ (rest.print ++ post)) (by rw [ht']; simp)]
      simp only [Option.bind_some]
      have hgen : ∀ conv : TagType, conv = kindType k → (if skip = true then render env.real t fuel { st with out := st.out ++ seen skip acc } (some (pre.length + acc.length + (k.print n.print).length)) key skip sec
          else if ((t.drop co).take l).length > 0 then
            (renderVariable env.real { st with out := st.out ++ seen skip acc } ((t.drop co).take l) conv key).bind fun r =>
              match r.1 with
              | .ok text => render env.real t fuel { st with out := st.out ++ seen skip acc ++ text, root := r.2 } (some (pre.length + acc.length + (k.print n.print).length)) key skip sec
              | .fail => some (.fail { st with out := st.out ++ seen skip acc, root := r.2 })
              | .abort => some (.abort { st with out := st.out ++ seen skip acc, root := r.2 })
              | .exit => some (.exit { st with out := st.out ++ seen skip acc, root := r.2 })
          else render env.real t fuel { st with out := st.out ++ seen skip acc ++ st.ds ++ st.de } (some (pre.length + acc.length + (k.print n.print).length)) key skip sec) =
          if skip = true then render env.real t fuel { st with out := st.out ++ seen skip acc } (some (pre ++ acc ++ k.print n.print).length) key skip sec
        else match varText env (vals root st.stack) key k n.name with
          | .ok text => render env.real t fuel { st with out := st.out ++ seen skip acc ++ text } (some (pre ++ acc ++ k.print n.print).length) key skip sec
          | .error w => some (resOf w { st with out := st.out ++ seen skip acc }) := by
        rintro conv rfl
        rw [hpre]
        split
        · rfl
        · rw [f2]
          by_cases hn : n.name = []
          · rw [if_neg (by simp [hn])]
            simp only [varText, hn, if_true, hl.ds, hl.de, tag, List.append_nil, List.append_assoc]
          · rw [if_pos (List.length_pos_iff.mpr hn)]
            have hrv := renderVariable_eq (env := env) (st := { st with out := st.out ++ seen skip acc }) (by rw [hl.data]; exact hw) (by rw [hl.data]; exact hl.stack) hne hz hn
              (k := k) (by rw [hl.data]; exact hstb) key
            rw [hrv, Option.bind_some]
            simp only [hl.data]
            cases varText env (vals root st.stack) key k n.name with
            | ok text => rfl
            | error w => cases w <;> rfl
      cases k <;> exact hgen _ rfl
    -- going on
    have hgo : ∀ text, (∀ fuel, render env.real t (fuel + 1) st (some pre.length) key skip sec =
          render env.real t fuel { st with out := st.out ++ seen skip acc ++ text } (some (pre ++ acc ++ k.print n.print).length) key skip sec) →
        match (Outcome.ok text (vals root st.stack)).andThen (fun ss => rest.eval env true skip key ss) with
        | .ok text ss => ∃ pre' acc' st', pre' ++ acc' = pre ++ acc ++ (Tpl.var k n rest).print ∧ PlainText acc' ∧ Live root st' ∧ vals root st'.stack = ss ∧
            st.stack.length ≤ st'.stack.length ∧ st'.out ++ seen skip acc' = st.out ++ seen skip acc ++ text ∧
            ∀ r, Runs env.real t st' pre'.length key skip sec r → Runs env.real t st pre.length key skip sec r
        | .stop text w => ∃ st', Runs env.real t st pre.length key skip sec (resOf w st') ∧ st'.out = st.out ++ seen skip acc ++ text := by
      intro text hst
      have hruns : ∀ r, Runs env.real t { st with out := st.out ++ seen skip acc ++ text } (pre ++ acc ++ k.print n.print).length key skip sec r → Runs env.real t st pre.length key skip sec r := by
        rintro r ⟨fuel, hr⟩
        exact ⟨fuel + 1, by rw [hst]; exact hr⟩
      have := ih (pre ++ acc ++ k.print n.print) [] post { st with out := st.out ++ seen skip acc ++ text } key skip sec (by rw [ht]; simp [Tpl.print]) plain_nil
        (by simpa using hwf.2.2) (fun h => hser (by simp [Tpl.serial, h])) ⟨hl.data, hl.ds, hl.de, hl.stack⟩ hlen
      simp only [Outcome.andThen]
      cases hev : rest.eval env true skip key (vals root st.stack) with
      | stop text2 w =>
        simp only [hev] at this ⊢
        obtain ⟨st', a1, a2⟩ := this
        exact ⟨st', hruns _ a1, by rw [a2]; cases skip <;> simp [seen]⟩
      | ok text2 ss =>
        simp only [hev] at this ⊢
        obtain ⟨pre', acc', st', a1, a2, a3, a4, a5, a6, a7⟩ := this
        exact ⟨pre', acc', st', by rw [a1]; simp [Tpl.print], a2, a3, a4, a5, by rw [a6]; cases skip <;> simp [seen], fun r hr => hruns r (a7 r hr)⟩
    simp only [Tpl.eval, varOutcome]
    cases hsk : skip with
    | true =>
      rw [hsk] at hgo hstep
      simp only [if_true]
      exact hgo [] (fun fuel => by rw [hstep, if_pos rfl, List.append_nil])
    | false =>
      rw [hsk] at hgo hstep
      simp only [Bool.false_eq_true, if_false]
      cases hvt : varText env (vals root st.stack) key k n.name with
      | ok text =>
        simp only [hvt] at hstep
        exact hgo text (fun fuel => by rw [hstep, if_neg (by simp)])
      | error w =>
        simp only [hvt, Outcome.andThen] at hstep ⊢
        exact ⟨{ st with out := st.out ++ seen false acc }, ⟨1, by rw [hstep, if_neg (by simp)]⟩, by simp⟩
  | «section» inv lay n body clay cl rest ihb ihr =>
    intro pre acc post st key skip sec ht hacc hwf hser hl hlen
    obtain ⟨w1, w2, w3, w4, w5, w6⟩ := hwf
    have ht' : t = pre ++ acc ++ lay.print (tag ((if inv then 94 else 35) :: n.print)) ++ (body.print ++ clay.print (closeTag cl) ++ rest.print ++ post) := by
      rw [ht]; simp [Tpl.print, openTag]
    obtain ⟨lead, trail, co, l, e1, e2, e3, f1, f2, f3⟩ := nextTag_lay (ty := if inv then .inverted else .section) h0 ht' hacc (comment_of_not_mem (name_no_brace w1))
      (by cases inv <;> rfl) (by cases inv <;> rfl) w3
    have f3 := f3 n w1 rfl
    have hz : (0 : UInt8) ∉ n.name := by
      intro hm
      exact h0 (by rw [ht', e1]; simp [tag, Name.print, hm])
    have hne : st.stack ≠ [] := by intro he; rw [he] at hlen; split at hlen <;> simp at hlen
    have hlen1 : 1 ≤ st.stack.length := List.length_pos_iff.mpr hne
    -- the opening tag
    let st1 : St := { st with out := st.out ++ seen skip acc }
    obtain ⟨var, v1, v2, v3⟩ := lookupVariable_eq (st := st1) (by rw [show st1.root = root from hl.data]; exact hw) (by rw [show st1.root = root from hl.data]; exact hl.stack) hne hz
    rw [show st1.root = root from hl.data] at v2 v3
    let st2 : St := { st with out := st.out ++ seen skip acc, stack := var :: st.stack }
    have hl2 : Live root st2 := ⟨hl.data, hl.ds, hl.de, by
      intro p hp
      rcases List.mem_cons.mp hp with e | hp
      · exact v3 p e.symm
      · exact hl.stack p hp⟩
    have hvals2 : vals root st2.stack = denote (vals root st.stack) n.name :: vals root st.stack := by
      show vals root (var :: st.stack) = _
      rw [show vals root (var :: st.stack) = var.bind (get root) :: vals root st.stack from rfl, v2]
    let A := pre ++ acc ++ lay.print (openTag inv n)
    let E := A ++ body.print ++ clay.print (closeTag cl)
    have hnx : pre.length + acc.length + (lay.print (tag ((if inv then 94 else 35) :: n.print))).length = A.length := by
      simp [A, openTag]; omega
    have hit : shouldIterate t (t.length + 1) A.length [123, 123] [125, 125] = some (some body.usesKey) := by
      refine shouldIterate_tree h0 body A [] (clay.print (closeTag cl) ++ rest.print ++ post) (t.length + 1) clay cl (rest.print ++ post) ?_ ?_ plain_nil ?_ ?_ w2 (by omega)
      · rw [ht]; simp [A, Tpl.print]
      · simp
      · simpa [A] using w4
      · simpa [A] using w5
    obtain ⟨p1, p2⟩ := plan_eq hl2 hit inv skip var v3
    rw [v2] at p1 p2
    have hbody : ∀ skip', BodyOK env.real t root A.length E.length skip' (fun key ss => body.eval env true skip' key ss) := by
      intro skip'
      refine body_ok h0 ihb (more := rest.print ++ post) ?_ ?_ (fun h => hser (by simp [Tpl.serial, h])) ?_ w2 skip'
      · rw [ht]; simp [A, Tpl.print]
      · simpa [A] using w4
      · simpa [A] using w5
    -- one step of the renderer
    have hstep : ∀ fuel, render env.real t (fuel + 1) st (some pre.length) key skip sec =
        match mode skip inv body (denote (vals root st.stack) n.name) with
        | .stop => some (.fail st2)
        | .once skip' => (render env.real t fuel st2 (some A.length) none skip' true).bind fun r => match r with
          | .ok st se => render env.real t fuel st se key skip sec
          | r => some r
        | .each items skip' => (iterate (fun st k => render env.real t fuel st (some A.length) (some k) skip' true) (var.getD []) items.length 0 st2 none).bind fun r => match r with
          | .ok st se => render env.real t fuel st se key skip sec
          | r => some r := by
      intro fuel
      rw [render, show nextTag t pre.length st.ds st.de = nextTag t pre.length [123, 123] [125, 125] by rw [hl.ds, hl.de], f1]
      simp only [Option.bind_eq_bind, Option.bind_some, f2]
      rw [contentBytes_seen (post := lay.print (tag ((if inv then 94 else 35) :: n.print)) ++ (body.print ++ clay.print (closeTag cl) ++ rest.print ++ post)) (by rw [ht']; simp)]
      simp only [Option.bind_some, f3, hnx]
      have hgen : ((lookupVariable { st with out := st.out ++ seen skip acc } n.name).bind fun var =>
          (plan t { st with out := st.out ++ seen skip acc, stack := var :: st.stack } A.length inv skip var).bind fun pl =>
            match pl with
            | .fail => some (Res.fail { st with out := st.out ++ seen skip acc, stack := var :: st.stack })
            | .overflow => some (.overflow { st with out := st.out ++ seen skip acc, stack := var :: st.stack })
            | .once skip' => (render env.real t fuel { st with out := st.out ++ seen skip acc, stack := var :: st.stack } (some A.length) none skip' true).bind fun r =>
              match r with
              | .ok st se => render env.real t fuel st se key skip sec
              | r => some r
            | .each p n skip' => (iterate (fun st k => render env.real t fuel st (some A.length) (some k) skip' true) p n 0
                { st with out := st.out ++ seen skip acc, stack := var :: st.stack } none).bind fun r =>
              match r with
              | .ok st se => render env.real t fuel st se key skip sec
              | r => some r) =
          match mode skip inv body (denote (vals root st.stack) n.name) with
        | .stop => some (.fail st2)
        | .once skip' => (render env.real t fuel st2 (some A.length) none skip' true).bind fun r => match r with
          | .ok st se => render env.real t fuel st se key skip sec
          | r => some r
        | .each items skip' => (iterate (fun st k => render env.real t fuel st (some A.length) (some k) skip' true) (var.getD []) items.length 0 st2 none).bind fun r => match r with
          | .ok st se => render env.real t fuel st se key skip sec
          | r => some r := by
        rw [show lookupVariable { st with out := st.out ++ seen skip acc } n.name = some var from v1, Option.bind_some]
        rw [show plan t { st with out := st.out ++ seen skip acc, stack := var :: st.stack } A.length inv skip var = _ from p1, Option.bind_some]
        cases mode skip inv body (denote (vals root st.stack) n.name) <;> rfl
      cases inv <;> exact hgen
    -- after the section
    have hafter : ∀ (st3 : St) (text : Bytes) (ss : Scopes), Live root st3 → vals root st3.stack = ss → st.stack.length ≤ st3.stack.length → st3.out = st.out ++ seen skip acc ++ text →
        (∀ r, Runs env.real t st3 E.length key skip sec r → Runs env.real t st pre.length key skip sec r) →
        match (Outcome.ok text ss).andThen (fun ss => rest.eval env true skip key ss) with
        | .ok text ss => ∃ pre' acc' st', pre' ++ acc' = pre ++ acc ++ (Tpl.section inv lay n body clay cl rest).print ∧ PlainText acc' ∧ Live root st' ∧ vals root st'.stack = ss ∧
            st.stack.length ≤ st'.stack.length ∧ st'.out ++ seen skip acc' = st.out ++ seen skip acc ++ text ∧
            ∀ r, Runs env.real t st' pre'.length key skip sec r → Runs env.real t st pre.length key skip sec r
        | .stop text w => ∃ st', Runs env.real t st pre.length key skip sec (resOf w st') ∧ st'.out = st.out ++ seen skip acc ++ text := by
      intro st3 text ss q1 q2 q3 q4 q5
      have := ihr E [] post st3 key skip sec (by rw [ht]; simp [E, A, Tpl.print]) plain_nil (by simpa [E, A] using w6) (fun h => hser (by simp [Tpl.serial, h])) q1 (Nat.le_trans hlen q3)
      rw [q2] at this
      simp only [Outcome.andThen]
      cases hev : rest.eval env true skip key ss with
      | stop text2 w =>
        simp only [hev] at this ⊢
        obtain ⟨st', a1, a2⟩ := this
        exact ⟨st', q5 _ a1, by rw [a2, q4]; cases skip <;> simp [seen]⟩
      | ok text2 ss =>
        simp only [hev] at this ⊢
        obtain ⟨pre', acc', st', a1, a2, a3, a4, a5, a6, a7⟩ := this
        exact ⟨pre', acc', st', by rw [a1]; simp [E, A, Tpl.print], a2, a3, a4, by omega, by rw [a6, q4]; cases skip <;> simp [seen], fun r hr => q5 r (a7 r hr)⟩
    simp only [Tpl.eval]
    cases hm : mode skip inv body (denote (vals root st.stack) n.name) with
    | stop =>
      simp only [hm] at hstep
      simp only [sectionOutcome, Outcome.andThen]
      exact ⟨st2, ⟨1, hstep 0⟩, by simp [st2]⟩
    | once skip' =>
      simp only [hm] at hstep
      have hb := hbody skip' st2 none hl2 (by simp [st2]; omega)
      rw [hvals2] at hb
      simp only [sectionOutcome]
      cases hev : body.eval env true skip' none (denote (vals root st.stack) n.name :: vals root st.stack) with
      | stop text w =>
        simp only [hev] at hb
        obtain ⟨st', ⟨fuel, b1⟩, b2⟩ := hb
        simp only [Outcome.andThen]
        refine ⟨st', ⟨fuel + 1, ?_⟩, by rw [b2]⟩
        rw [hstep, b1, Option.bind_some]
        cases w <;> rfl
      | ok text ss =>
        simp only [hev] at hb
        obtain ⟨st', ⟨fuel, b1⟩, b2, b3, b4, b5⟩ := hb
        have hA : ((Outcome.ok text ss).andThen fun ss => Outcome.ok [] ss.tail) = .ok text ss.tail := by simp [Outcome.andThen]
        rw [hA]
        refine hafter st' text ss.tail b2 b4 (by simp [st2] at b5; omega) b3 ?_
        rintro r ⟨fuel2, hr⟩
        refine ⟨max fuel fuel2 + 1, ?_⟩
        rw [hstep, render_mono_le _ _ (Nat.le_max_left fuel fuel2) b1, Option.bind_some]
        exact render_mono_le _ _ (Nat.le_max_right fuel fuel2) hr
    | each items skip' =>
      simp only [hm] at hstep
      obtain ⟨p, nm, ct, ks, c1, c2, c3, c4⟩ := p2 items skip' hm
      subst c1
      have hlen_items : items.length = ks.length := by rw [c4]; cases ct <;> simp [named, numbered]
      have hb := iterate_tree hw (hbody skip') c2 ks.length 0 st2 none (by omega) hl2 (by simp [st2])
      rw [hvals2, List.drop_zero, ← c4] at hb
      rw [hlen_items] at hstep
      simp only [sectionOutcome]
      cases hev : forEach (fun k ss => body.eval env true skip' (some k) ss) items (denote (vals root st.stack) n.name :: vals root st.stack) with
      | stop text w =>
        simp only [hev] at hb
        obtain ⟨fuel, st', b1, b2⟩ := hb
        simp only [Outcome.andThen]
        refine ⟨st', ⟨fuel + 1, ?_⟩, by rw [b2]⟩
        rw [hstep]
        simp only [Option.getD_some]
        rw [b1, Option.bind_some]
        cases w <;> rfl
      | ok text ss =>
        simp only [hev] at hb
        obtain ⟨fuel, st', b1, b2, b3, b4, b5⟩ := hb
        have hA : ((Outcome.ok text ss).andThen fun ss => Outcome.ok [] (if True then ss else ss.tail)) = .ok text ss := by simp [Outcome.andThen]
        rw [hA]
        have hks : ks.length ≠ 0 := fun h => c3 (List.length_eq_zero_iff.mp h)
        rw [if_neg hks] at b1
        refine hafter st' text ss b2 b4 (by simp [st2] at b5; omega) b3 ?_
        rintro r ⟨fuel2, hr⟩
        refine ⟨max fuel fuel2 + 1, ?_⟩
        rw [hstep]
        simp only [Option.getD_some]
        rw [iterate_mono (fun st k r h => render_mono_le _ _ (Nat.le_max_left fuel fuel2) h) _ _ _ _ _ b1, Option.bind_some]
        exact render_mono_le _ _ (Nat.le_max_right fuel fuel2) hr

end Mustache
