import Verif.Lemmas.MustacheScope
/-! # Templates that never change the delimiters -/
namespace Mustache
open Json (Bytes Elem)

def NoDelim (t : Bytes) : Prop := ¬ [123, 123, 61] <:+: t

theorem nextTag_noDelim {t : Bytes} (h : NoDelim t) {i : Nat} {de : Bytes} {tag : Tag} (hn : nextTag t i [123, 123] de = some tag) : tag.type ≠ .delim := by
  unfold nextTag at hn
  cases hs : Str.strstr (t.drop i) [123, 123] with
  | none => rw [hs] at hn; cases hn; simp
  | some k =>
    obtain ⟨hb1, hb2⟩ := strstr_bounds hs
    simp at hb1
    rw [hs] at hn
    simp only [Option.bind_eq_bind] at hn
    cases hr : rd t (i + k + ([123, 123] : Bytes).length) with
    | none => rw [hr] at hn; cases hn
    | some c =>
      rw [hr] at hn
      simp only [Option.bind_some] at hn
      have hc : c ≠ 61 := by
        rintro rfl
        apply h
        obtain ⟨r, er⟩ := hb2
        rw [List.drop_drop] at er
        have hlt : i + k + 2 < t.length := by
          rcases Nat.lt_or_ge (i + k + 2) t.length with hlt | hge
          · exact hlt
          · have : i + k + ([123, 123] : Bytes).length = t.length := by simp; omega
            rw [this, rd_end] at hr
            cases hr
        have h2 := hr
        rw [rd_eq (by simpa using hlt)] at h2
        cases r with
        | nil =>
          have := congrArg List.length er
          simp at this
          omega
        | cons d r =>
          have hd : t[i + k + 2]? = some d := by
            have := congrArg (fun l => l[2]?) er
            simp at this
            rw [← this]
          have h3 : t[i + k + 2] = 61 := by simpa using h2
          rw [List.getElem?_eq_getElem hlt, h3] at hd
          cases hd
          refine ⟨t.take (i + k), r, ?_⟩
          have e2 : [123, 123, 61] ++ r = t.drop (i + k) := by rw [← er]; rfl
          rw [List.append_assoc, e2]
          exact List.take_append_drop _ _
      have hk : (tagKind c).1 ≠ .delim := by
        have := Str.byte_all (P := fun c => decide (c ≠ 61 → (tagKind c).1 ≠ .delim)) (by decide +kernel) c
        exact of_decide_eq_true this hc
      split at hn
      · cases hn; simp
      · simp only [Option.bind_eq_some_iff] at hn
        obtain ⟨_, _, _, _, e⟩ := hn
        cases e
        exact hk

theorem shouldIterate_noDelim {t : Bytes} (h : NoDelim t) : ∀ fuel input r, shouldIterate t fuel input [123, 123] [125, 125] = some r → r ≠ none := by
  intro fuel
  induction fuel with
  | zero => intro input r h; cases h
  | succ fuel ih =>
    intro input r hr
    rw [shouldIterate] at hr
    simp only [Option.bind_eq_bind, Option.bind_eq_some_iff] at hr
    obtain ⟨tag, h1, h2⟩ := hr
    have hgo : ∀ r, (tag.fin.bind fun fin => shouldIterate t fuel fin [123, 123] [125, 125]) = some r → r ≠ none := by
      intro r h
      simp only [Option.bind_eq_some_iff] at h
      obtain ⟨fin, _, h⟩ := h
      exact ih fin r h
    have hv : ∀ b : Option Nat, (b.bind fun b => (isKeyExtensionVar t tag.type b [123, 123] [125, 125]).bind fun k =>
        if k = true then some (some true) else tag.fin.bind fun fin => shouldIterate t fuel fin [123, 123] [125, 125]) = some r → r ≠ none := by
      intro b h
      simp only [Option.bind_eq_some_iff] at h
      obtain ⟨_, _, k, _, h⟩ := h
      split at h
      · cases h; simp
      · exact hgo r (by simpa only [Option.bind_eq_some_iff] using h)
    have hd := nextTag_noDelim h h1
    cases ht : tag.type <;> rw [ht] at hd <;> simp only [ht] at h2 hv
    case delim => exact absurd rfl hd
    case var => exact hv _ (by simpa only [Option.bind_eq_some_iff] using h2)
    case varUnescaped => exact hv _ (by simpa only [Option.bind_eq_some_iff] using h2)
    all_goals first | (cases h2; simp) | exact hgo r (by simpa only [Option.bind_eq_some_iff] using h2)

theorem plan_noDelim {t : Bytes} (h : NoDelim t) {st : St} (hs : st.ds = [123, 123] ∧ st.de = [125, 125]) {input : Nat} {inv skip : Bool} {var : Option Path} {r : Plan}
    (hp : plan t st input inv skip var = some r) : r ≠ .overflow := by
  cases var with
  | none => cases hp; simp
  | some p =>
    unfold plan at hp
    cases hv : get st.root p with
    | none => simp [hv] at hp
    | some v =>
      simp only [hv] at hp
      cases v with
      | prim n ty x => cases ty <;> (cases hp; simp)
      | cont n ct ks =>
        have hbig : (if ks.length > 0 then some (Plan.each p ks.length (skip || inv)) else some (.once (!inv))) = some r → r ≠ .overflow := by
          intro h
          split at h <;> (cases h; simp)
        cases ct with
        | array => exact hbig hp
        | object =>
          simp only [hs.1, hs.2, Option.bind_eq_bind, Option.bind_eq_some_iff] at hp
          obtain ⟨it, h1, h2⟩ := hp
          have := shouldIterate_noDelim h _ _ _ h1
          cases it with
          | none => exact absurd rfl this
          | some b => cases b with
            | false => cases h2; simp
            | true => exact hbig h2

/-- No overflow, and the usual delimiters afterwards. -/
def Calm : Res → Prop
  | .ok st _ => st.ds = [123, 123] ∧ st.de = [125, 125]
  | .overflow _ => False
  | _ => True

theorem iterate_noDelim {g : St → Bytes → Option Res} (hg : ∀ st k r, st.ds = [123, 123] ∧ st.de = [125, 125] → g st k = some r → Calm r) {p : Path} : ∀ n i st se r,
    st.ds = [123, 123] ∧ st.de = [125, 125] → iterate g p n i st se = some r → Calm r := by
  intro n
  induction n with
  | zero => intro i st se r hs h; cases h; exact hs
  | succ n ih =>
    intro i st se r hs h
    rw [iterate] at h
    cases hv : get st.root p with
    | none => rw [hv] at h; cases h
    | some v =>
      rw [hv] at h
      cases v with
      | prim => cases h
      | cont nm ct ks =>
        cases ct with
        | object =>
          simp only [Option.bind_eq_bind, Option.bind_eq_some_iff] at h
          obtain ⟨c, h1, k, h2, r1, h3, h4⟩ := h
          have hc := hg _ _ _ (by exact hs) h3
          cases r1 with
          | ok st' se' => exact ih _ _ _ _ hc h4
          | _ => cases h4; exact hc
        | array =>
          simp only [Option.bind_eq_bind, Option.bind_eq_some_iff] at h
          obtain ⟨r1, h3, h4⟩ := h
          have hc := hg _ _ _ (by exact hs) h3
          cases r1 with
          | ok st' se' => exact ih _ _ _ _ hc h4
          | _ => cases h4; exact hc

theorem render_noDelim (rt : RealText) {t : Bytes} (hd : NoDelim t) : ∀ fuel st input key skip sec r, st.ds = [123, 123] ∧ st.de = [125, 125] →
    render rt t fuel st input key skip sec = some r → Calm r := by
  intro fuel
  induction fuel with
  | zero => intro st input key skip sec r _ h; cases h
  | succ fuel ih =>
    intro st input key skip sec r hs h
    cases input with
    | none => cases h; exact trivial
    | some input =>
      rw [render] at h
      simp only [Option.bind_eq_bind, Option.bind_eq_some_iff] at h
      obtain ⟨tag, h1, b, h2, bf, h3, h4⟩ := h
      have hnd : tag.type ≠ .delim := nextTag_noDelim hd (by rw [hs.1] at h1; exact h1)
      have hsec : ∀ (inv : Bool) (r : Res), (∃ var, lookupVariable { st with out := st.out ++ bf } (List.take tag.len (List.drop tag.content t)) = some var ∧
          ∃ inp, b.2 = some inp ∧ ∃ pl, plan t { st with out := st.out ++ bf, stack := var :: st.stack } inp inv skip var = some pl ∧
            (match pl with
            | .fail => some (Res.fail { st with out := st.out ++ bf, stack := var :: st.stack })
            | .overflow => some (.overflow { st with out := st.out ++ bf, stack := var :: st.stack })
            | .once skip' => (render rt t fuel { st with out := st.out ++ bf, stack := var :: st.stack } (some inp) none skip' true).bind fun r => match r with
              | .ok st se => render rt t fuel st se key skip sec
              | r => some r
            | .each p n skip' => (iterate (fun st k => render rt t fuel st (some inp) (some k) skip' true) p n 0 { st with out := st.out ++ bf, stack := var :: st.stack } none).bind
                fun r => match r with
              | .ok st se => render rt t fuel st se key skip sec
              | r => some r) = some r) → Calm r := by
        rintro inv r ⟨var, a1, inp, a2, pl, a3, a4⟩
        have hp := plan_noDelim hd hs a3
        cases pl with
        | fail => cases a4; exact trivial
        | overflow => exact absurd rfl hp
        | once skip' =>
          simp only [Option.bind_eq_some_iff] at a4
          obtain ⟨r1, c1, c2⟩ := a4
          have hc := ih _ _ _ _ _ _ (by exact hs) c1
          cases r1 with
          | ok st' se' => exact ih _ _ _ _ _ _ hc c2
          | _ => cases c2; exact hc
        | each p n skip' =>
          simp only [Option.bind_eq_some_iff] at a4
          obtain ⟨r1, c1, c2⟩ := a4
          have hc := iterate_noDelim (fun st k r hs h => ih _ _ _ _ _ _ hs h) _ _ _ _ _ (by exact hs) c1
          cases r1 with
          | ok st' se' => exact ih _ _ _ _ _ _ hc c2
          | _ => cases c2; exact hc
      have hvar : ∀ (conv : TagType) (r : Res), (if skip = true then render rt t fuel { st with out := st.out ++ bf } b.2 key skip sec
          else if (List.take tag.len (List.drop tag.content t)).length > 0 then
            (renderVariable rt { st with out := st.out ++ bf } (List.take tag.len (List.drop tag.content t)) conv key).bind fun r =>
              match r.1 with
              | .ok text => render rt t fuel { st with out := st.out ++ bf ++ text, root := r.2 } b.2 key skip sec
              | .fail => some (.fail { st with out := st.out ++ bf, root := r.2 })
              | .abort => some (.abort { st with out := st.out ++ bf, root := r.2 })
              | .exit => some (.exit { st with out := st.out ++ bf, root := r.2 })
          else render rt t fuel { st with out := st.out ++ bf ++ st.ds ++ st.de } b.2 key skip sec) = some r → Calm r := by
        intro conv r h
        split at h
        · exact ih _ _ _ _ _ _ (by exact hs) h
        · split at h
          · simp only [Option.bind_eq_some_iff] at h
            obtain ⟨r1, c1, c2⟩ := h
            cases hr : r1.1 <;> rw [hr] at c2
            case ok text => exact ih _ _ _ _ _ _ (by exact hs) c2
            all_goals (cases c2; exact trivial)
          · exact ih _ _ _ _ _ _ (by exact hs) h
      cases ht : tag.type <;> simp only [ht] at h4
      case err => cases h4; exact trivial
      case none => cases h4; exact hs
      case comment => exact ih _ _ _ _ _ _ (by exact hs) h4
      case delim => exact absurd ht hnd
      case sectionEnd =>
        split at h4
        · cases h4; exact trivial
        · cases h4; exact hs
      case «section» =>
        simp only [Option.bind_eq_some_iff] at h4
        exact hsec false r h4
      case inverted =>
        simp only [Option.bind_eq_some_iff] at h4
        exact hsec true r h4
      case var => exact hvar .var r h4
      case varUnescaped => exact hvar .varUnescaped r h4
      case varSerialized => exact hvar .varSerialized r h4
      case varSerializedCompact => exact hvar .varSerializedCompact r h4

end Mustache
