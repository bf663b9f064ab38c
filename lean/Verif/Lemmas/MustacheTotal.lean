import Verif.Lemmas.MustacheTag
import Verif.Props.StrNum
/-! # Rendering ends, and does nothing undefined -/
theorem Str.stringToLong_total (s : List UInt8) : ∃ r, Str.stringToLong s = some r := by
  unfold Str.stringToLong
  simp only
  split
  · exact ⟨_, rfl⟩
  · have hce : ∃ c, Str.checkEnd s (Str.strtol s).2.1 = some c := by
      unfold Str.checkEnd
      split
      · exact ⟨_, rfl⟩
      · have hle : (Str.strtol s).2.1 ≤ s.length := by
          unfold Str.strtol
          cases hp : Str.strtoParse s with
          | none => simp
          | some x =>
            obtain ⟨neg, mag, e⟩ := x
            have := Str.numeral_parse s neg mag e hp
            simp only
            repeat' split
            all_goals exact this.2.2
        rw [List.getElem?_eq_getElem (by simp; omega)]
        simp only [Option.bind_eq_bind, Option.bind_some]
        split <;> exact ⟨_, rfl⟩
    obtain ⟨c, hc⟩ := hce
    rw [hc]
    cases c <;> exact ⟨_, rfl⟩

namespace Mustache
open Json (Bytes Elem)

structure StOK (st : St) : Prop where
  wf : WF st.root
  ds : DelimOK st.ds
  de : DelimOK st.de
  stack : ∀ p, some p ∈ st.stack → (get st.root p).isSome

/-! ## Looking names up -/

theorem lookupBase_ok {root : Elem} (hw : WF root) (k : Bytes) : ∀ stack : List (Option Path), (∀ p, some p ∈ stack → (get root p).isSome) →
    ∃ r, lookupBase root k stack = some r ∧ ∀ p, r = some p → (get root p).isSome := by
  intro stack
  induction stack with
  | nil => intro _; exact ⟨none, rfl, by simp⟩
  | cons a st ih =>
    intro h
    have ih := ih fun p hp => h p (by simp [hp])
    cases a with
    | none => exact ih
    | some p =>
      have hp := h p (by simp)
      rw [lookupBase]
      obtain ⟨v, hv⟩ := Option.isSome_iff_exists.mp hp
      rw [hv]
      cases v with
      | prim n t x => exact ih
      | cont n t ks =>
        cases t with
        | array => exact ih
        | object =>
          have hwv := wf_object.mp (get_wf hw hv)
          simp only [jsonGet_eq k hwv.2.2, Option.bind_eq_bind, Option.bind_some]
          cases hf : ks.find? (fun c => c.name == some k) with
          | none => exact ih
          | some c =>
            refine ⟨_, rfl, ?_⟩
            intro q hq; cases hq
            rw [get_append, hv]; simp [get, child, hf]

theorem lookupRest_ok {root : Elem} (hw : WF root) (name : Bytes) : ∀ n i p, (get root p).isSome →
    ∃ r, lookupRest root name n i p = some r ∧ ∀ p, r = some p → (get root p).isSome := by
  intro n
  induction n with
  | zero => intro i p hp; exact ⟨_, rfl, by intro q hq; cases hq; exact hp⟩
  | succ n ih =>
    intro i p hp
    rw [lookupRest]
    obtain ⟨v, hv⟩ := Option.isSome_iff_exists.mp hp
    rw [hv]
    cases v with
    | prim => exact ⟨none, rfl, by simp⟩
    | cont nm t ks =>
      cases t with
      | array => exact ⟨none, rfl, by simp⟩
      | object =>
        have hwv := wf_object.mp (get_wf hw hv)
        simp only [jsonGet_eq (comp name i) hwv.2.2, Option.bind_eq_bind, Option.bind_some]
        cases hf : ks.find? (fun c => c.name == some (comp name i)) with
        | none => exact ⟨none, rfl, by simp⟩
        | some c => exact ih (i + 1) _ (by rw [get_append, hv]; simp [get, child, hf])

theorem lookupVariable_ok {st : St} (h : StOK st) (hne : st.stack ≠ []) (name : Bytes) :
    ∃ r, lookupVariable st name = some r ∧ ∀ p, r = some p → (get st.root p).isSome := by
  unfold lookupVariable
  rw [if_neg hne]
  obtain ⟨r, e1, e2⟩ := lookupBase_ok h.wf (comp name 0) st.stack h.stack
  have hb : ∃ r, baseVar st (comp name 0) = some r ∧ ∀ p, r = some p → (get st.root p).isSome := by
    unfold baseVar
    simp only [e1, Option.bind_eq_bind, Option.bind_some]
    cases r with
    | some p => exact ⟨_, rfl, e2⟩
    | none =>
      simp only
      split
      · refine ⟨_, rfl, ?_⟩
        intro p hp
        apply h.stack
        cases hl : st.stack.getLast? with
        | none => rw [hl] at hp; cases hp
        | some x =>
          rw [hl] at hp
          simp at hp
          subst hp
          exact List.mem_of_getLast? hl
      · exact ⟨none, rfl, by simp⟩
  obtain ⟨b, b1, b2⟩ := hb
  simp only [b1, Option.bind_eq_bind, Option.bind_some]
  cases b with
  | none => exact ⟨none, rfl, by simp⟩
  | some p => exact lookupRest_ok h.wf name _ 1 p (b2 p rfl)

/-! ## Variables -/

theorem renderPrimitive_ok (rt : RealText) (t : Json.PType) (v : Bytes) (esc : Bool) (k : Option Bytes) : ∃ r, renderPrimitive rt t v esc k = some r := by
  cases k with
  | some k => exact ⟨_, rfl⟩
  | none =>
    cases t with
    | integer =>
      obtain ⟨r, hr⟩ := Str.stringToLong_total v
      simp only [renderPrimitive, hr, Option.bind_some]
      cases r <;> exact ⟨_, rfl⟩
    | _ => exact ⟨_, rfl⟩

theorem renderElem_ok {rt : RealText} {root : Elem} (hw : WF root) {p : Path} (hp : (get root p).isSome) (conv : TagType) (item : Bool) (k : Option Bytes) :
    ∃ r, renderElem rt root p conv item k = some r ∧ Twin root r.2 := by
  obtain ⟨v, hv⟩ := Option.isSome_iff_exists.mp hp
  have htr : Twin root root := ⟨rfl, hw, Sim.refl _⟩
  unfold renderElem
  rw [hv]
  cases v with
  | prim n t x =>
    obtain ⟨r, hr⟩ := renderPrimitive_ok rt t x (conv == .var) k
    exact ⟨_, by simp only [hr]; rfl, htr⟩
  | cont n ct ks =>
    have hwv := get_wf hw hv
    simp only
    split
    · obtain ⟨tx, e', a, b⟩ := write_twin (.cont n ct ks) 0 hwv
      have : Json.jsonWrite 0 (.cont n ct ks) = some (tx, e') := a
      rw [this]
      exact ⟨_, rfl, put_twin hw hv b⟩
    · split
      · obtain ⟨tx, e', a, b⟩ := compact_twin (.cont n ct ks) hwv
        rw [a]
        exact ⟨_, rfl, put_twin hw hv b⟩
      · cases k with
        | some k => exact ⟨_, rfl, htr⟩
        | none => cases item <;> exact ⟨_, rfl, htr⟩

theorem renderVariable_ok {rt : RealText} {st : St} (h : StOK st) (hne : st.stack ≠ []) (name : Bytes) (conv : TagType) (k : Option Bytes) :
    ∃ r, renderVariable rt st name conv k = some r ∧ Twin st.root r.2 := by
  have htr : Twin st.root st.root := ⟨rfl, h.wf, Sim.refl _⟩
  unfold renderVariable
  have hv : ∃ var, varOf st name = some var ∧ ∀ p, var = some p → (get st.root p).isSome := by
    unfold varOf
    split
    · obtain ⟨a, l, hl⟩ : ∃ a l, st.stack = a :: l := List.exists_cons_of_ne_nil hne
      refine ⟨a, by rw [hl]; rfl, ?_⟩
      intro p hp
      subst hp
      exact h.stack p (by rw [hl]; simp)
    · exact lookupVariable_ok h hne name
  obtain ⟨var, v1, v2⟩ := hv
  simp only [v1, Option.bind_eq_bind, Option.bind_some]
  split
  · exact ⟨_, rfl, htr⟩
  · cases var with
    | none => exact ⟨_, rfl, htr⟩
    | some p => exact renderElem_ok h.wf (v2 p rfl) conv _ _

/-! ## Sections -/

theorem infix_content {t w : Bytes} {a b : Nat} (h : w <:+: (t.drop a).take b) : w <:+: t :=
  h.trans ((List.take_prefix _ _).isInfix.trans (List.drop_suffix _ _).isInfix)

theorem shouldIterate_ok {t : Bytes} (h0 : (0 : UInt8) ∉ t) : ∀ fuel input ds de, DelimOK ds → DelimOK de → input ≤ t.length → t.length < fuel + input →
    ∃ r, shouldIterate t fuel input ds de = some r ∧ (r = none → TenWord t) := by
  intro fuel
  induction fuel with
  | zero => intro input ds de _ _ h1 h2; omega
  | succ fuel ih =>
    intro input ds de hds hde h1 h2
    obtain ⟨tag, e1, e2⟩ := nextTag_ok h0 hds hde h1
    have hbe : ∀ b, tag.begin = some b → tag.type = .var ∨ tag.type = .varUnescaped → b + ds.length ≤ t.length := by
      intro b hb ht
      unfold nextTag at e1
      cases hs : Str.strstr (t.drop input) ds with
      | none => rw [hs] at e1; cases e1; cases hb
      | some k =>
        have hb1 := (strstr_bounds hs).1
        simp at hb1
        rw [hs] at e1
        simp only [Option.bind_eq_bind] at e1
        cases hr : rd t (input + k + ds.length) with
        | none => rw [hr] at e1; cases e1
        | some c =>
          rw [hr] at e1
          simp only [Option.bind_some] at e1
          have : tag.begin = some (input + k) := by
            split at e1
            · cases e1; rfl
            · simp only [Option.bind_eq_some_iff] at e1
              obtain ⟨_, _, _, _, e⟩ := e1
              cases e; rfl
          rw [hb] at this; cases this
          omega
    rw [shouldIterate]
    simp only [e1, Option.bind_eq_bind, Option.bind_some]
    rcases e2.cases with ⟨g1, g2, g3⟩ | ⟨g1, g2, b, g3, g4⟩ | ⟨g1, g2, b, e, g3, g4, g5, g6, g7, g8, g9⟩
    · rw [g1]; exact ⟨_, rfl, by simp⟩
    · rw [g1]; exact ⟨_, rfl, by simp⟩
    · have hgo : ∀ ds de, DelimOK ds → DelimOK de → ∃ r, (tag.fin.bind fun fin => shouldIterate t fuel fin ds de) = some r ∧ (r = none → TenWord t) := by
        intro ds de k1 k2
        rw [g4, Option.bind_some]
        exact ih e ds de k1 k2 g7 (by omega)
      have hs := setDelimiters_ok ((t.drop tag.content).take tag.len)
      have hvar : tag.type = .var ∨ tag.type = .varUnescaped → ∃ r, (tag.begin.bind fun b => (isKeyExtensionVar t tag.type b ds de).bind fun k =>
          if k = true then some (some true) else tag.fin.bind fun fin => shouldIterate t fuel fin ds de) = some r ∧ (r = none → TenWord t) := by
        intro ht
        obtain ⟨kr, hk⟩ := isKeyExtensionVar_ok (t := t) (type := tag.type) (b := b) (ds := ds) (de := de) (hbe b g3 ht)
        rw [g3, Option.bind_some, hk, Option.bind_some]
        split
        · exact ⟨_, rfl, by simp⟩
        · exact hgo ds de hds hde
      cases ht : tag.type <;> rw [ht] at g1 g2 hvar <;> simp only
      case err => exact absurd rfl g2
      case none => exact absurd rfl g1
      case var => exact hvar (Or.inl rfl)
      case varUnescaped => exact hvar (Or.inr rfl)
      case delim =>
        cases hd : setDelimiters ((t.drop tag.content).take tag.len) with
        | ok ds' de' => have := hs.1 ds' de' hd; exact hgo ds' de' this.1 this.2
        | fail => exact ⟨_, rfl, by simp⟩
        | overflow =>
          obtain ⟨w, w1, w2, w3⟩ := hs.2 hd
          exact ⟨_, rfl, fun _ => ⟨w, w1, w2, infix_content w3⟩⟩
      all_goals first | exact hgo ds de hds hde | exact ⟨_, rfl, by simp⟩

theorem plan_ok {t : Bytes} (h0 : (0 : UInt8) ∉ t) {st : St} (h : StOK st) {input : Nat} (hi : input ≤ t.length) (inv skip : Bool) (var : Option Path)
    (hv : ∀ p, var = some p → (get st.root p).isSome) :
    ∃ r, plan t st input inv skip var = some r ∧ (r = .overflow → TenWord t) ∧
      (∀ p n s, r = .each p n s → ∃ nm ct ks, get st.root p = some (.cont nm ct ks) ∧ ks.length = n) := by
  cases var with
  | none => exact ⟨_, rfl, by simp, by simp⟩
  | some p =>
    obtain ⟨v, hv⟩ := Option.isSome_iff_exists.mp (hv p rfl)
    unfold plan
    simp only [hv]
    cases v with
    | prim n t x => cases t <;> exact ⟨_, rfl, by simp, by simp⟩
    | cont n ct ks =>
      have hbig : ∃ r, (if ks.length > 0 then some (Plan.each p ks.length (skip || inv)) else some (.once (!inv))) = some r ∧ (r = .overflow → TenWord t) ∧
          (∀ p n s, r = .each p n s → ∃ nm ct ks, get st.root p = some (.cont nm ct ks) ∧ ks.length = n) := by
        split
        · refine ⟨_, rfl, by simp, ?_⟩
          intro p' n' s e
          cases e
          exact ⟨_, _, _, hv, rfl⟩
        · exact ⟨_, rfl, by simp, by simp⟩
      cases ct with
      | array => exact hbig
      | object =>
        obtain ⟨r, e1, e2⟩ := shouldIterate_ok h0 (t.length + 1) input st.ds st.de h.ds h.de hi (by omega)
        simp only [e1, Option.bind_eq_bind, Option.bind_some]
        cases r with
        | none => exact ⟨_, rfl, fun _ => e2 rfl, by simp⟩
        | some b =>
          cases b with
          | false => exact ⟨_, rfl, by simp, by simp⟩
          | true => exact hbig

/-! ## The renderer -/

/-- What holds of any result. -/
def ResOK (t : Bytes) (st : St) (input : Nat) (sec : Bool) : Res → Prop
  | .ok st' se => StOK st' ∧ Sim st.root st'.root ∧ st.out <+: st'.out ∧
      (∀ e, se = some e → sec = true ∧ InputOK t e ∧ input < e ∧ st.stack.length ≤ st'.stack.length + 1) ∧ (se = none → st.stack.length ≤ st'.stack.length)
  | .fail st' | .abort st' | .exit st' => st.out <+: st'.out
  | .overflow st' => st.out <+: st'.out ∧ TenWord t

theorem iterate_ok {t : Bytes} {input : Nat} {g : St → Bytes → Option Res}
    (hg : ∀ st k, StOK st → 2 ≤ st.stack.length → ∃ r, g st k = some r ∧ ResOK t st input true r) {p : Path} {L : Nat} : ∀ n i st se, i + n = L → StOK st → 1 ≤ st.stack.length →
    (∃ nm ct ks, get st.root p = some (.cont nm ct ks) ∧ ks.length = L) → (∀ e, se = some e → InputOK t e ∧ input < e) →
    ∃ r, iterate g p n i st se = some r ∧ (match r with
      | .ok st' se' => StOK st' ∧ Sim st.root st'.root ∧ st.out <+: st'.out ∧ (∀ e, se' = some e → InputOK t e ∧ input < e) ∧ st.stack.length ≤ st'.stack.length
      | .fail st' | .abort st' | .exit st' => st.out <+: st'.out
      | .overflow st' => st.out <+: st'.out ∧ TenWord t) := by
  intro n
  induction n with
  | zero => intro i st se _ h1 _ _ h3; exact ⟨_, rfl, h1, Sim.refl _, List.prefix_refl _, h3, Nat.le_refl _⟩
  | succ n ih =>
    intro i st se hL h1 h2 h3 h4
    obtain ⟨nm, ct, ks, k1, k2⟩ := h3
    have step : ∀ q key, (get st.root q).isSome → ∃ r, ((g { st with stack := some q :: st.stack } key).bind fun r => match r with
        | .ok st se' => iterate g p n (i + 1) st (se'.or se)
        | r => some r) = some r ∧ (match r with
      | .ok st' se' => StOK st' ∧ Sim st.root st'.root ∧ st.out <+: st'.out ∧ (∀ e, se' = some e → InputOK t e ∧ input < e) ∧ st.stack.length ≤ st'.stack.length
      | .fail st' | .abort st' | .exit st' => st.out <+: st'.out
      | .overflow st' => st.out <+: st'.out ∧ TenWord t) := by
      intro q key hq
      obtain ⟨r, r1, r2⟩ := hg { st with stack := some q :: st.stack } key ⟨h1.wf, h1.ds, h1.de, by
        intro p' hp'
        rcases List.mem_cons.mp hp' with e | hp'
        · cases e; exact hq
        · exact h1.stack p' hp'⟩ (by simp; omega)
      rw [r1, Option.bind_some]
      cases r with
      | fail s => exact ⟨_, rfl, r2⟩
      | abort s => exact ⟨_, rfl, r2⟩
      | exit s => exact ⟨_, rfl, r2⟩
      | overflow s => exact ⟨_, rfl, r2⟩
      | ok st' se' =>
        obtain ⟨a1, a2, a3, a4, a5⟩ := r2
        have hlen : st.stack.length ≤ st'.stack.length := by
          cases hse : se' with
          | none => have := a5 hse; simp at this; omega
          | some e => have := (a4 e hse).2.2.2; simp at this; omega
        have hp' : ∃ nm ct ks, get st'.root p = some (.cont nm ct ks) ∧ ks.length = L := by
          have := a2 p
          rw [k1] at this
          cases hx : get st'.root p with
          | none => rw [hx] at this; cases this
          | some v =>
            rw [hx] at this
            cases v with
            | prim => simp [shape] at this
            | cont n' ct' ks' => simp [shape] at this; exact ⟨_, _, _, rfl, by omega⟩
        obtain ⟨r, b1, b2⟩ := ih (i + 1) st' (se'.or se) (by omega) a1 (by omega) hp' (by
          intro e he
          cases hse : se' with
          | none => rw [hse] at he; exact h4 e (by simpa using he)
          | some x => rw [hse] at he; simp at he; subst he; exact ⟨(a4 x hse).2.1, (a4 x hse).2.2.1⟩)
        refine ⟨r, b1, ?_⟩
        cases r with
        | ok st'' se'' => exact ⟨b2.1, a2.trans b2.2.1, a3.trans b2.2.2.1, b2.2.2.2.1, by have := b2.2.2.2.2; omega⟩
        | fail s => exact a3.trans b2
        | abort s => exact a3.trans b2
        | exit s => exact a3.trans b2
        | overflow s => exact ⟨a3.trans b2.1, b2.2⟩
    have hi : i < ks.length := by omega
    rw [iterate, k1]
    cases ct with
    | object =>
      have hw := wf_object.mp (get_wf h1.wf k1)
      obtain ⟨k, hk⟩ := hw.2.2 ks[i] (List.getElem_mem hi)
      simp only [List.getElem?_eq_getElem hi, hk, Option.bind_eq_bind, Option.bind_some]
      apply step
      rw [get_append, k1]
      have : (ks.find? fun c => c.name == some k) = some ks[i] := (find_key hw.2.1 k _).mpr ⟨List.getElem_mem hi, hk⟩
      simp [get, child, this]
    | array =>
      simp only [Option.bind_eq_bind]
      apply step
      rw [get_append, k1]
      simp [get, child, List.getElem?_eq_getElem hi]

theorem contentBytes_ok {t : Bytes} {input : Nat} {skip : Bool} {b : Option Nat} (h : ∀ e, b = some e → input ≤ e) : ∃ x, contentBytes t input skip b = some x := by
  cases b with
  | none => exact ⟨_, rfl⟩
  | some e => have := h e rfl; simp only [contentBytes]; rw [if_neg (by omega)]; exact ⟨_, rfl⟩

theorem render_ok (rt : RealText) {t : Bytes} (h0 : (0 : UInt8) ∉ t) : ∀ fuel st input key skip sec, StOK st → InputOK t input → t.length < fuel + input →
    (if sec then 2 else 1) ≤ st.stack.length → ∃ r, render rt t fuel st (some input) key skip sec = some r ∧ ResOK t st input sec r := by
  intro fuel
  induction fuel with
  | zero => intro st input key skip sec _ h1 h2 _; have := h1.1; omega
  | succ fuel ih =>
    intro st input key skip sec hst hin hf hlen
    have hlen1 : 1 ≤ st.stack.length := by split at hlen <;> omega
    obtain ⟨tag, e1, e2⟩ := nextTag_ok h0 hst.ds hst.de hin.1
    obtain ⟨b1, b2, f1, f2, f3, f4⟩ := bounds_ok h0 hin e2
    obtain ⟨before, g1⟩ := contentBytes_ok (t := t) (skip := skip) f2
    rw [render]
    simp only [e1, f1, g1, Option.bind_eq_bind, Option.bind_some]
    have hst1 : StOK { st with out := st.out ++ before } := ⟨hst.wf, hst.ds, hst.de, hst.stack⟩
    have hpre : st.out <+: st.out ++ before := List.prefix_append _ _
    rcases e2.cases with ⟨k1, k2, k3⟩ | ⟨k1, k2, b, k3, k4⟩ | ⟨k1, k2, b, e, k3, k4, k5, k6, k7, k8, k9⟩
    · rw [k1]
      exact ⟨_, rfl, hst1, Sim.refl _, hpre, by simp, fun _ => Nat.le_refl _⟩
    · rw [k1]; exact ⟨_, rfl, hpre⟩
    · obtain ⟨nx, n1, n2, n3⟩ := f4 e k4
      subst n1
      -- going on after the tag
      have hgo : ∀ st' : St, StOK st' → Sim st.root st'.root → st.out <+: st'.out → st.stack.length ≤ st'.stack.length →
          ∃ r, render rt t fuel st' (some nx) key skip sec = some r ∧ ResOK t st input sec r := by
        intro st' s1 s2 s3 s4
        obtain ⟨r, r1, r2⟩ := ih st' nx key skip sec s1 n3 (by omega) (by omega)
        refine ⟨r, r1, ?_⟩
        cases r with
        | ok st'' se =>
          obtain ⟨a1, a2, a3, a4, a5⟩ := r2
          exact ⟨a1, s2.trans a2, s3.trans a3, fun e he => ⟨(a4 e he).1, (a4 e he).2.1, by have := (a4 e he).2.2.1; omega, by have := (a4 e he).2.2.2; omega⟩,
            fun he => by have := a5 he; omega⟩
        | fail s => exact s3.trans r2
        | abort s => exact s3.trans r2
        | exit s => exact s3.trans r2
        | overflow s => exact ⟨s3.trans r2.1, r2.2⟩
      -- going on after a section
      have hafter : ∀ (st' : St) (se : Option Nat), StOK st' → Sim st.root st'.root → st.out <+: st'.out → st.stack.length ≤ st'.stack.length →
          (∀ e, se = some e → InputOK t e ∧ nx < e) → ∃ r, render rt t fuel st' se key skip sec = some r ∧ ResOK t st input sec r := by
        intro st' se s1 s2 s3 s4 s5
        obtain ⟨fu, rfl⟩ : ∃ fu, fuel = fu + 1 := ⟨fuel - 1, by have := n3.1; omega⟩
        cases se with
        | none => exact ⟨.fail st', by rw [render], s3⟩
        | some e' =>
          obtain ⟨i1, i2⟩ := s5 e' rfl
          obtain ⟨r, r1, r2⟩ := ih st' e' key skip sec s1 i1 (by omega) (by omega)
          refine ⟨r, r1, ?_⟩
          cases r with
          | ok st'' se =>
            obtain ⟨a1, a2, a3, a4, a5⟩ := r2
            exact ⟨a1, s2.trans a2, s3.trans a3, fun e he => ⟨(a4 e he).1, (a4 e he).2.1, by have := (a4 e he).2.2.1; omega, by have := (a4 e he).2.2.2; omega⟩,
              fun he => by have := a5 he; omega⟩
          | fail s => exact s3.trans r2
          | abort s => exact s3.trans r2
          | exit s => exact s3.trans r2
          | overflow s => exact ⟨s3.trans r2.1, r2.2⟩
      have hcontent : ∀ w : Bytes, w <:+: (t.drop tag.content).take tag.len → w <:+: t := fun w hw => infix_content hw
      have hs := setDelimiters_ok ((t.drop tag.content).take tag.len)
      have hsection : ∀ inv : Bool, ∃ r, ((lookupVariable { st with out := st.out ++ before } ((t.drop tag.content).take tag.len)).bind fun var =>
          (plan t { st with out := st.out ++ before, stack := var :: st.stack } nx inv skip var).bind fun pl =>
            match pl with
            | .fail => some (.fail { st with out := st.out ++ before, stack := var :: st.stack })
            | .overflow => some (.overflow { st with out := st.out ++ before, stack := var :: st.stack })
            | .once skip' => (render rt t fuel { st with out := st.out ++ before, stack := var :: st.stack } (some nx) none skip' true).bind fun r =>
              match r with
              | .ok st se => render rt t fuel st se key skip sec
              | r => some r
            | .each p n skip' => (iterate (fun st k => render rt t fuel st (some nx) (some k) skip' true) p n 0
                { st with out := st.out ++ before, stack := var :: st.stack } none).bind fun r =>
              match r with
              | .ok st se => render rt t fuel st se key skip sec
              | r => some r) = some r ∧ ResOK t st input sec r := by
        intro inv
        obtain ⟨var, v1, v2⟩ := lookupVariable_ok hst1 (by intro he; rw [show st.stack = [] from he] at hlen1; simp at hlen1) ((t.drop tag.content).take tag.len)
        rw [v1, Option.bind_some]
        have hst2 : StOK { st with out := st.out ++ before, stack := var :: st.stack } := ⟨hst.wf, hst.ds, hst.de, by
          intro p hp
          rcases List.mem_cons.mp hp with e | hp
          · exact v2 p e.symm
          · exact hst.stack p hp⟩
        obtain ⟨pl, p1, p2, p3⟩ := plan_ok h0 hst2 n3.1 inv skip var v2
        rw [p1, Option.bind_some]
        cases pl with
        | fail => exact ⟨_, rfl, hpre⟩
        | overflow => exact ⟨_, rfl, hpre, p2 rfl⟩
        | once skip' =>
          obtain ⟨r, r1, r2⟩ := ih { st with out := st.out ++ before, stack := var :: st.stack } nx none skip' true hst2 n3 (by omega) (by simp; omega)
          simp only
          rw [r1, Option.bind_some]
          cases r with
          | ok st' se =>
            obtain ⟨a1, a2, a3, a4, a5⟩ := r2
            have hl : st.stack.length ≤ st'.stack.length := by
              cases hse : se with
              | none => have := a5 hse; simp at this; omega
              | some e => have := (a4 e hse).2.2.2; simp at this; omega
            exact hafter st' se a1 a2 (hpre.trans a3) hl fun e he => ⟨(a4 e he).2.1, (a4 e he).2.2.1⟩
          | fail s => exact ⟨_, rfl, hpre.trans r2⟩
          | abort s => exact ⟨_, rfl, hpre.trans r2⟩
          | exit s => exact ⟨_, rfl, hpre.trans r2⟩
          | overflow s => exact ⟨_, rfl, hpre.trans r2.1, r2.2⟩
        | each p n skip' =>
          obtain ⟨r, r1, r2⟩ := iterate_ok (t := t) (input := nx) (g := fun st k => render rt t fuel st (some nx) (some k) skip' true) (fun st k s1 s2 =>
            ih st nx (some k) skip' true s1 n3 (by omega) s2) n 0 { st with out := st.out ++ before, stack := var :: st.stack } none (Nat.zero_add n) hst2 (by simp)
            (p3 p n skip' rfl) (by simp)
          simp only
          rw [r1, Option.bind_some]
          cases r with
          | ok st' se =>
            obtain ⟨a1, a2, a3, a4, a5⟩ := r2
            exact hafter st' se a1 a2 (hpre.trans a3) (by simp at a5; omega) a4
          | fail s => exact ⟨_, rfl, hpre.trans r2⟩
          | abort s => exact ⟨_, rfl, hpre.trans r2⟩
          | exit s => exact ⟨_, rfl, hpre.trans r2⟩
          | overflow s => exact ⟨_, rfl, hpre.trans r2.1, r2.2⟩
      have hvar : ∀ conv : TagType, ∃ r, (if skip = true then render rt t fuel { st with out := st.out ++ before } (some nx) key skip sec
          else if ((t.drop tag.content).take tag.len).length > 0 then
            (renderVariable rt { st with out := st.out ++ before } ((t.drop tag.content).take tag.len) conv key).bind fun r =>
              match r.1 with
              | .ok text => render rt t fuel { st with out := st.out ++ before ++ text, root := r.2 } (some nx) key skip sec
              | .fail => some (.fail { st with out := st.out ++ before, root := r.2 })
              | .abort => some (.abort { st with out := st.out ++ before, root := r.2 })
              | .exit => some (.exit { st with out := st.out ++ before, root := r.2 })
          else render rt t fuel { st with out := st.out ++ before ++ st.ds ++ st.de } (some nx) key skip sec) = some r ∧ ResOK t st input sec r := by
        intro conv
        split
        · exact hgo _ hst1 (Sim.refl _) hpre (Nat.le_refl _)
        · split
          · obtain ⟨r, r1, r2⟩ := renderVariable_ok (rt := rt) hst1 (by intro he; rw [show st.stack = [] from he] at hlen1; simp at hlen1) ((t.drop tag.content).take tag.len) conv key
            rw [r1, Option.bind_some]
            cases hr : r.1 with
            | ok text =>
              exact hgo _ ⟨r2.2.1, hst.ds, hst.de, fun p hp => r2.2.2.isSome (hst.stack p hp)⟩ r2.2.2 (hpre.trans (List.prefix_append _ _)) (Nat.le_refl _)
            | fail => exact ⟨_, rfl, hpre⟩
            | abort => exact ⟨_, rfl, hpre⟩
            | exit => exact ⟨_, rfl, hpre⟩
          · exact hgo _ ⟨hst.wf, hst.ds, hst.de, hst.stack⟩ (Sim.refl _) (by rw [List.append_assoc, List.append_assoc]; exact List.prefix_append _ _) (Nat.le_refl _)
      cases ht : tag.type <;> rw [ht] at k1 k2 <;> simp only
      case err => exact absurd rfl k2
      case none => exact absurd rfl k1
      case comment => exact hgo _ hst1 (Sim.refl _) hpre (Nat.le_refl _)
      case delim =>
        cases hd : setDelimiters ((t.drop tag.content).take tag.len) with
        | ok ds' de' =>
          have := hs.1 ds' de' hd
          exact hgo _ ⟨hst.wf, this.1, this.2, hst.stack⟩ (Sim.refl _) hpre (Nat.le_refl _)
        | fail => exact ⟨_, rfl, hpre⟩
        | overflow =>
          obtain ⟨w, w1, w2, w3⟩ := hs.2 hd
          exact ⟨_, rfl, hpre, ⟨w, w1, w2, infix_content w3⟩⟩
      case sectionEnd =>
        cases hsec : sec with
        | false => exact ⟨_, rfl, hpre⟩
        | true =>
          refine ⟨_, rfl, ⟨hst.wf, hst.ds, hst.de, fun p hp => hst.stack p (List.mem_of_mem_tail hp)⟩, Sim.refl _, hpre, ?_, by simp⟩
          intro e he
          cases he
          exact ⟨rfl, n3, n2, by simp; omega⟩
      case «section» => exact hsection false
      case inverted => exact hsection true
      case var => exact hvar .var
      case varUnescaped => exact hvar .varUnescaped
      case varSerialized => exact hvar .varSerialized
      case varSerializedCompact => exact hvar .varSerializedCompact

end Mustache
