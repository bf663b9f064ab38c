import Verif.Model.Yaml
import Verif.Spec.Yaml
import Verif.Props.JsonLoose
import Verif.Props.JsonOps
/-! # C122: YAML texts are read as the JSON documents they stand for -/
namespace Yaml
open Json JsonSpec
open YamlSpec (ScalarDoc NoLeadingNumber NodeDoc NodeDocs MemberDocs)

/-! ## The events of a document -/

/-- libyaml's report of a scalar (yaml.h, documentation of `yaml_event_t`): `plain_implicit` says that the tag may be left out for the plain style, `quoted_implicit`
for any other; a tag given explicitly unsets both. -/
def scalarEvent : YamlSpec.Scalar → Scalar
  | .plain t => ⟨none, t, true, false⟩
  | .quoted t => ⟨none, t, false, true⟩
  | .tagged tag t => ⟨some tag, t, false, false⟩

mutual
def nodeEvents : YamlSpec.Node → List Event
  | .scalar s => [.scalar (scalarEvent s)]
  | .seq ns => .seqStart :: (itemEvents ns ++ [.seqEnd])
  | .map ms => .mapStart :: (memberEvents ms ++ [.mapEnd])
def itemEvents : List YamlSpec.Node → List Event
  | [] => []
  | n :: ns => nodeEvents n ++ itemEvents ns
def memberEvents : List (YamlSpec.Scalar × YamlSpec.Node) → List Event
  | [] => []
  | m :: ms => .scalar (scalarEvent m.1) :: (nodeEvents m.2 ++ memberEvents ms)
end

/-- Stream start, then document start, node and document end for each document, then stream end. -/
def streamEvents (docs : List YamlSpec.Node) : List Event :=
  .other :: (docs.flatMap fun n => .other :: (nodeEvents n ++ [.other])) ++ [.streamEnd]

/-! ## Scalars -/

theorem cstr_id {v : Bytes} (h : 0 ∉ v) : cstr v = v := by
  rw [cstr]
  induction v with
  | nil => rfl
  | cons x v ih =>
    simp only [List.mem_cons, not_or] at h
    rw [List.takeWhile_cons, if_pos (by simpa using Ne.symm h.1), ih h.2]

theorem single_iff (v : Bytes) (c : UInt8) : single v c = true ↔ v = [c] := by
  match v with
  | [] => simp [single]
  | [x] => simp [single]
  | _ :: _ :: _ => simp [single]

theorem null_iff (v : Bytes) (h : 0 ∉ v) : (single v 126 || v.length == 0 || nulls.contains (cstr v)) = true ↔ v ∈ YamlSpec.nullWords := by
  rw [cstr_id h]
  simp only [Bool.or_eq_true, single_iff, beq_iff_eq, List.length_eq_zero_iff, nulls, List.contains_iff_mem, YamlSpec.nullWords, List.mem_cons, or_assoc]

theorem true_iff (v : Bytes) (h : 0 ∉ v) : (single v 89 || single v 121 || trues.contains (cstr v)) = true ↔ v ∈ YamlSpec.trueWords := by
  rw [cstr_id h]
  simp only [Bool.or_eq_true, single_iff, trues, List.contains_iff_mem, YamlSpec.trueWords, List.mem_cons, or_assoc]

theorem false_iff (v : Bytes) (h : 0 ∉ v) : (single v 78 || single v 110 || falses.contains (cstr v)) = true ↔ v ∈ YamlSpec.falseWords := by
  rw [cstr_id h]
  simp only [Bool.or_eq_true, single_iff, falses, List.contains_iff_mem, YamlSpec.falseWords, List.mem_cons, or_assoc]

theorem number_ok {t : Bytes} (h : NumberText t) : numLoop t 0 {} = some (.ok (.prim none (if 46 ∈ t then .real else .integer) t, 0 + t.length - 1)) := by
  have := numLoop_complete t 0 {} [] [] numInv_init (by intro c r h; cases h) (by simpa using h)
  simpa using this

theorem number_no {t : Bytes} (h0 : 0 ∉ t) (h : ¬ NumberText t) (hl : ∀ a c b, t = a ++ c :: b → NumberText a → ¬ (IsBlank c ∨ c = 44 ∨ c = 93 ∨ c = 125)) :
    ∃ e, numLoop t 0 {} = some (.error e) := by
  obtain ⟨r, h1, _⟩ := numLoop_total t 0 {} h0 (by simp) (by simp)
  cases r with
  | error e => exact ⟨e, h1⟩
  | ok x =>
    exfalso
    obtain ⟨a, post, g1, g2, g3, _⟩ := numLoop_sound t 0 {} [] h0 numInv_init x.1 x.2 h1
    rw [List.nil_append] at g3
    cases post with
    | nil => rw [List.append_nil] at g1; exact h (g1 ▸ g3)
    | cons c r =>
      refine hl a c r g1 g3 ?_
      have := (atSep_iff _).2 g2
      exact this c r rfl

theorem words_disjoint {t : Bytes} : (t ∈ YamlSpec.trueWords → t ∉ YamlSpec.nullWords) ∧ (t ∈ YamlSpec.falseWords → t ∉ YamlSpec.nullWords ∧ t ∉ YamlSpec.trueWords) := by
  constructor
  · intro h; simp only [YamlSpec.trueWords, List.mem_cons, List.not_mem_nil, or_false] at h
    rcases h with h | h | h | h | h | h | h | h | h | h | h <;> subst h <;> decide
  · intro h; simp only [YamlSpec.falseWords, List.mem_cons, List.not_mem_nil, or_false] at h
    rcases h with h | h | h | h | h | h | h | h | h | h | h <;> subst h <;> decide

theorem number_no_word {t : Bytes} (h : NumberText t) : t ∉ YamlSpec.nullWords ∧ t ∉ YamlSpec.trueWords ∧ t ∉ YamlSpec.falseWords := by
  have key : ∀ w : Bytes, (∃ e, numLoop w 0 {} = some (.error e)) → t ≠ w := by
    rintro w ⟨e, he⟩ rfl
    rw [number_ok h] at he
    cases he
  refine ⟨fun hm => ?_, fun hm => ?_, fun hm => ?_⟩
  · simp only [YamlSpec.nullWords, List.mem_cons, List.not_mem_nil, or_false] at hm
    rcases hm with h | h | h | h | h <;> exact key _ ⟨_, rfl⟩ h
  · simp only [YamlSpec.trueWords, List.mem_cons, List.not_mem_nil, or_false] at hm
    rcases hm with h | h | h | h | h | h | h | h | h | h | h <;> exact key _ ⟨_, rfl⟩ h
  · simp only [YamlSpec.falseWords, List.mem_cons, List.not_mem_nil, or_false] at hm
    rcases hm with h | h | h | h | h | h | h | h | h | h | h <;> exact key _ ⟨_, rfl⟩ h

theorem scalar_ok (rt : RealText) {s : YamlSpec.Scalar} {d : Doc} (h : ScalarDoc s d) (h0 : 0 ∉ s.text) (hn : NoLeadingNumber s)
    (hi : ∀ t, d = .integer t → IsInt t) (hr : ∀ t, d = .real t → rt t = t) :
    ∃ e, scalarValue (scalarEvent s) = some e ∧ doc e = d ∧ Valid (fun _ => True) (fun _ => True) IsInt (fun v => rt v = v) e := by
  cases h with
  | @null t hw =>
    refine ⟨nullCreate, ?_, rfl, rfl⟩
    rw [scalarValue]; simp only [scalarEvent, (null_iff t h0).2 hw]; rfl
  | @true t hw =>
    have hnn := words_disjoint.1 hw
    refine ⟨boolCreate true, ?_, rfl, .inl rfl⟩
    rw [scalarValue]
    simp only [scalarEvent, Bool.eq_false_iff.2 (fun e => hnn ((null_iff t h0).1 e)), Bool.and_false, Bool.false_eq_true, if_false]
    rw [boolOrMore]
    simp only [(true_iff t h0).2 hw]; rfl
  | @false t hw =>
    obtain ⟨h1, h2⟩ := words_disjoint.2 hw
    refine ⟨boolCreate false, ?_, rfl, .inr rfl⟩
    rw [scalarValue]
    simp only [scalarEvent, Bool.eq_false_iff.2 (fun e => h1 ((null_iff t h0).1 e)), Bool.and_false, Bool.false_eq_true, if_false]
    rw [boolOrMore]
    simp only [Bool.eq_false_iff.2 (fun e => h2 ((true_iff t h0).1 e)), (false_iff t h0).2 hw]; rfl
  | @integer t hw hd =>
    obtain ⟨h1, h2, h3⟩ := number_no_word hw
    refine ⟨.prim none .integer t, ?_, rfl, hi t rfl⟩
    rw [scalarValue]
    simp only [scalarEvent, Bool.eq_false_iff.2 (fun e => h1 ((null_iff t h0).1 e)), Bool.and_false, Bool.false_eq_true, if_false]
    rw [boolOrMore]
    simp only [Bool.eq_false_iff.2 (fun e => h2 ((true_iff t h0).1 e)), Bool.eq_false_iff.2 (fun e => h3 ((false_iff t h0).1 e))]
    rw [numberOrString]
    simp only [cstr_id (v := t) h0, number_ok hw, if_neg hd]; rfl
  | @real t hw hd =>
    obtain ⟨h1, h2, h3⟩ := number_no_word hw
    refine ⟨.prim none .real t, ?_, rfl, hr t rfl⟩
    rw [scalarValue]
    simp only [scalarEvent, Bool.eq_false_iff.2 (fun e => h1 ((null_iff t h0).1 e)), Bool.and_false, Bool.false_eq_true, if_false]
    rw [boolOrMore]
    simp only [Bool.eq_false_iff.2 (fun e => h2 ((true_iff t h0).1 e)), Bool.eq_false_iff.2 (fun e => h3 ((false_iff t h0).1 e))]
    rw [numberOrString]
    simp only [cstr_id (v := t) h0, number_ok hw, if_pos hd]; rfl
  | @text t h1 h2 h3 hw =>
    refine ⟨.prim none .string t, ?_, rfl, trivial⟩
    obtain ⟨e, he⟩ := number_no h0 hw hn
    rw [scalarValue]
    simp only [scalarEvent, Bool.eq_false_iff.2 (fun e => h1 ((null_iff t h0).1 e)), Bool.and_false, Bool.false_eq_true, if_false]
    rw [boolOrMore]
    simp only [Bool.eq_false_iff.2 (fun e => h2 ((true_iff t h0).1 e)), Bool.eq_false_iff.2 (fun e => h3 ((false_iff t h0).1 e))]
    rw [numberOrString]
    have he' : numLoop t 0 {} = some (.error e) := he
    simp only [cstr_id (v := t) h0, he']; rfl
  | @quoted t =>
    refine ⟨.prim none .string t, ?_, rfl, trivial⟩
    rw [scalarValue]
    simp only [scalarEvent]
    rw [boolOrMore]
    simp only [numberOrString, cstr_id (v := t) h0]
    rfl
  | @taggedNull t hw =>
    refine ⟨nullCreate, ?_, rfl, rfl⟩
    rw [scalarValue]; simp only [scalarEvent, (null_iff t h0).2 hw]; rfl
  | @taggedTrue t hw =>
    refine ⟨boolCreate true, ?_, rfl, .inl rfl⟩
    rw [scalarValue]
    simp only [scalarEvent, Option.getD_some, show (YamlSpec.tagBool == nullTag) = false by decide, Bool.or_false, Bool.false_and, Bool.false_eq_true, if_false]
    rw [boolOrMore]
    simp only [(true_iff t h0).2 hw]; rfl
  | @taggedFalse t hw =>
    obtain ⟨h1, h2⟩ := words_disjoint.2 hw
    refine ⟨boolCreate false, ?_, rfl, .inr rfl⟩
    rw [scalarValue]
    simp only [scalarEvent, Option.getD_some, show (YamlSpec.tagBool == nullTag) = false by decide, Bool.or_false, Bool.false_and, Bool.false_eq_true, if_false]
    rw [boolOrMore]
    simp only [Bool.eq_false_iff.2 (fun e => h2 ((true_iff t h0).1 e)), (false_iff t h0).2 hw]; rfl
  | @taggedInteger tag t ht hw hd =>
    refine ⟨.prim none .integer t, ?_, rfl, hi t rfl⟩
    rcases ht with rfl | rfl <;>
    · rw [scalarValue]
      simp only [scalarEvent, Option.getD_some, show (YamlSpec.tagInt == nullTag) = false by decide, show (YamlSpec.tagFloat == nullTag) = false by decide,
        Bool.or_false, Bool.false_and, Bool.false_eq_true, if_false]
      rw [boolOrMore, numberOrString]
      simp only [cstr_id (v := t) h0, number_ok hw, if_neg hd]; rfl
  | @taggedReal tag t ht hw hd =>
    refine ⟨.prim none .real t, ?_, rfl, hr t rfl⟩
    rcases ht with rfl | rfl <;>
    · rw [scalarValue]
      simp only [scalarEvent, Option.getD_some, show (YamlSpec.tagInt == nullTag) = false by decide, show (YamlSpec.tagFloat == nullTag) = false by decide,
        Bool.or_false, Bool.false_and, Bool.false_eq_true, if_false]
      rw [boolOrMore, numberOrString]
      simp only [cstr_id (v := t) h0, number_ok hw, if_pos hd]; rfl
  | @taggedText tag t ht =>
    refine ⟨.prim none .string t, ?_, rfl, trivial⟩
    simp only [List.mem_cons, List.not_mem_nil, or_false, not_or] at ht
    have e1 : (tag == nullTag) = false := by rw [beq_eq_false_iff_ne]; exact ht.1
    have e2 : (tag == boolTag) = false := by rw [beq_eq_false_iff_ne]; exact ht.2.1
    have e3 : (tag == intTag) = false := by rw [beq_eq_false_iff_ne]; exact ht.2.2.1
    have e4 : (tag == floatTag) = false := by rw [beq_eq_false_iff_ne]; exact ht.2.2.2
    rw [scalarValue]
    simp only [scalarEvent, Option.getD_some, e1, Bool.or_false, Bool.false_and, Bool.false_eq_true, if_false]
    rw [boolOrMore, numberOrString]
    simp [e2, e3, e4, cstr_id (v := t) h0, stringCreate]

/-! ## The number of iterations -/

theorem data_fuel : ∀ (f : Nat) (t : CType) (kids : List Elem) (key : Option Bytes) (evs : List Event) (r : List Elem × List Event),
    data f t kids key evs = some r → r.2.length ≤ evs.length ∧ ∀ g, evs.length < g → data g t kids key evs = some r := by
  intro f
  induction f with
  | zero => intro t kids key evs r h; cases h
  | succ f ih =>
    intro t kids key evs r h
    have nest : ∀ (t' : CType) (F : List Elem → List Elem) (evs' : List Event), evs.length = evs'.length + 1 →
        ((data f t' [] none evs').bind fun r => data f t (F r.1) none r.2) = some r → r.2.length ≤ evs.length ∧
          ∀ g, evs'.length < g → ((data g t' [] none evs').bind fun r => data g t (F r.1) none r.2) = some r := by
      intro t' F evs' hl h
      rw [Option.bind_eq_some_iff] at h
      obtain ⟨r1, h1, h2⟩ := h
      obtain ⟨a1, a2⟩ := ih _ _ _ _ _ h1
      obtain ⟨b1, b2⟩ := ih _ _ _ _ _ h2
      refine ⟨by omega, fun g hg => ?_⟩
      rw [a2 g hg, Option.bind_some, b2 g (by omega)]
    have scal : ∀ (s : Scalar) (F : Elem → List Elem) (evs' : List Event), evs.length = evs'.length + 1 →
        ((scalarValue s).bind fun e => data f t (F e) none evs') = some r → r.2.length ≤ evs.length ∧
          ∀ g, evs'.length < g → ((scalarValue s).bind fun e => data g t (F e) none evs') = some r := by
      intro s F evs' hl h
      rw [Option.bind_eq_some_iff] at h
      obtain ⟨r1, h1, h2⟩ := h
      obtain ⟨b1, b2⟩ := ih _ _ _ _ _ h2
      exact ⟨by omega, fun g hg => by rw [h1, Option.bind_some, b2 g hg]⟩
    have one : ∀ (g n : Nat), n < g → ∃ g', g = g' + 1 := fun g n h => ⟨g - 1, by omega⟩
    match evs, h with
    | [], h =>
      rw [data] at h; cases h
      exact ⟨Nat.le_refl _, fun g hg => by obtain ⟨g', rfl⟩ := one g _ hg; rfl⟩
    | .none :: evs, h =>
      rw [data] at h; cases h
      exact ⟨Nat.le_succ _, fun g hg => by obtain ⟨g', rfl⟩ := one g _ hg; rfl⟩
    | .streamEnd :: evs, h =>
      rw [data] at h; cases h
      exact ⟨Nat.le_succ _, fun g hg => by obtain ⟨g', rfl⟩ := one g _ hg; rfl⟩
    | .other :: evs, h =>
      rw [data] at h
      obtain ⟨a, b⟩ := ih _ _ _ _ _ h
      exact ⟨Nat.le_succ_of_le a, fun g hg => by obtain ⟨g', rfl⟩ := one g _ hg; rw [data]; exact b g' (by simp at hg; omega)⟩
    | .scalar s :: evs, h =>
      cases t with
      | object =>
        cases key with
        | none =>
          rw [data] at h
          obtain ⟨a, b⟩ := ih _ _ _ _ _ h
          exact ⟨Nat.le_succ_of_le a, fun g hg => by obtain ⟨g', rfl⟩ := one g _ hg; rw [data]; exact b g' (by simp at hg; omega)⟩
        | some k =>
          rw [data] at h
          obtain ⟨a, b⟩ := scal s (fun e => appendElement kids k e) evs rfl h
          exact ⟨a, fun g hg => by obtain ⟨g', rfl⟩ := one g _ hg; rw [data]; exact b g' (by simp at hg; omega)⟩
      | array =>
        rw [data] at h
        obtain ⟨a, b⟩ := scal s (fun e => kids ++ [e]) evs rfl h
        exact ⟨a, fun g hg => by obtain ⟨g', rfl⟩ := one g _ hg; rw [data]; exact b g' (by simp at hg; omega)⟩
    | .seqStart :: evs, h =>
      cases t with
      | object =>
        cases key with
        | none => cases h
        | some k =>
          rw [data] at h
          obtain ⟨a, b⟩ := nest .array (fun l => appendElement kids k (.cont none .array l)) evs rfl h
          exact ⟨a, fun g hg => by obtain ⟨g', rfl⟩ := one g _ hg; rw [data]; exact b g' (by simp at hg; omega)⟩
      | array =>
        rw [data] at h
        obtain ⟨a, b⟩ := nest .array (fun l => kids ++ [.cont none .array l]) evs rfl h
        exact ⟨a, fun g hg => by obtain ⟨g', rfl⟩ := one g _ hg; rw [data]; exact b g' (by simp at hg; omega)⟩
    | .mapStart :: evs, h =>
      cases t with
      | object =>
        cases key with
        | none => cases h
        | some k =>
          rw [data] at h
          obtain ⟨a, b⟩ := nest .object (fun l => appendElement kids k (.cont none .object l)) evs rfl h
          exact ⟨a, fun g hg => by obtain ⟨g', rfl⟩ := one g _ hg; rw [data]; exact b g' (by simp at hg; omega)⟩
      | array =>
        rw [data] at h
        obtain ⟨a, b⟩ := nest .object (fun l => kids ++ [.cont none .object l]) evs rfl h
        exact ⟨a, fun g hg => by obtain ⟨g', rfl⟩ := one g _ hg; rw [data]; exact b g' (by simp at hg; omega)⟩
    | .seqEnd :: evs, h =>
      cases t with
      | object => cases h
      | array =>
        rw [data] at h; cases h
        exact ⟨Nat.le_succ _, fun g hg => by obtain ⟨g', rfl⟩ := one g _ hg; rfl⟩
    | .mapEnd :: evs, h =>
      cases t with
      | array => cases h
      | object =>
        rw [data] at h; cases h
        exact ⟨Nat.le_succ _, fun g hg => by obtain ⟨g', rfl⟩ := one g _ hg; rfl⟩

/-! ## Nodes -/

/-- The loop ends with this result. -/
def Fin (t : CType) (kids : List Elem) (key : Option Bytes) (evs : List Event) (r : List Elem × List Event) : Prop := ∃ f, data f t kids key evs = some r

theorem Fin.at {t : CType} {kids : List Elem} {key : Option Bytes} {evs : List Event} {r : List Elem × List Event} (h : Fin t kids key evs r) (g : Nat) (hg : evs.length < g) :
    data g t kids key evs = some r := by
  obtain ⟨f, hf⟩ := h
  exact (data_fuel f _ _ _ _ _ hf).2 g hg

theorem Fin.big {t t' : CType} {kids kids' : List Elem} {key key' : Option Bytes} {evs evs' : List Event} {r r' : List Elem × List Event}
    (h : Fin t kids key evs r) (h' : Fin t' kids' key' evs' r') : ∃ f, data f t kids key evs = some r ∧ data f t' kids' key' evs' = some r' :=
  ⟨evs.length + evs'.length + 1, h.at _ (by omega), h'.at _ (by omega)⟩

/-- What is asked of the scalars that are values: their texts have no NUL byte, no number at the beginning of a longer text (see `C122_leading_number_negated`), and numbers
survive copying (see C28). -/
def GoodValue (rt : RealText) (s : YamlSpec.Scalar) : Prop :=
  0 ∉ s.text ∧ NoLeadingNumber s ∧ (∀ t, ScalarDoc s (.integer t) → IsInt t) ∧ (∀ t, ScalarDoc s (.real t) → rt t = t)

def GoodKey (s : YamlSpec.Scalar) : Prop := 0 ∉ s.text

abbrev Ok (rt : RealText) (e : Elem) : Prop := Valid (fun _ => True) (fun _ => True) IsInt (fun v => rt v = v) e

theorem validAll_iff {okS okK okI okR : Bytes → Prop} (l : List Elem) : ValidAll okS okK okI okR l ↔ ∀ e ∈ l, Valid okS okK okI okR e := by
  induction l with
  | nil => simp [ValidAll]
  | cons e l ih => simp [ValidAll, ih]

theorem key_text (s : YamlSpec.Scalar) (h : 0 ∉ s.text) : cstr (scalarEvent s).value = s.text := by
  cases s <;> exact cstr_id h

mutual
theorem node_ok (rt : RealText) {n : YamlSpec.Node} {d : Doc} (h : NodeDoc n d) (hg : n.All (GoodValue rt) GoodKey) :
    ∃ e, doc e = d ∧ Ok rt e ∧ (∀ kids key rest r, Fin .array (kids ++ [e]) none rest r → Fin .array kids key (nodeEvents n ++ rest) r) ∧
      (∀ kids k rest r, Fin .object (appendElement kids k e) none rest r → Fin .object kids (some k) (nodeEvents n ++ rest) r) := by
  cases h with
  | @scalar s d hs =>
    rw [YamlSpec.Node.All] at hg
    obtain ⟨h0, h1, h2, h3⟩ := hg
    obtain ⟨e, e1, e2, e3⟩ := scalar_ok rt hs h0 h1 (fun t ht => h2 t (ht ▸ hs)) (fun t ht => h3 t (ht ▸ hs))
    refine ⟨e, e2, e3, ?_, ?_⟩
    · rintro kids key rest r ⟨f, hf⟩
      exact ⟨f + 1, by rw [nodeEvents, List.cons_append, List.nil_append, data, e1, Option.bind_some, hf]⟩
    · rintro kids k rest r ⟨f, hf⟩
      exact ⟨f + 1, by rw [nodeEvents, List.cons_append, List.nil_append, data, e1, Option.bind_some, hf]⟩
  | @seq ns ds hs =>
    rw [YamlSpec.Node.All] at hg
    obtain ⟨es, e1, e2, e3⟩ := items_ok rt hs hg
    refine ⟨.cont none .array es, by rw [doc, e1], e2, ?_, ?_⟩
    · intro kids key rest r hf
      obtain ⟨f, f1, f2⟩ := (e3 [] none rest).big hf
      exact ⟨f + 1, by rw [nodeEvents, List.cons_append, data, List.append_assoc, List.cons_append, List.nil_append, f1, Option.bind_some]; exact f2⟩
    · intro kids k rest r hf
      obtain ⟨f, f1, f2⟩ := (e3 [] none rest).big hf
      exact ⟨f + 1, by rw [nodeEvents, List.cons_append, data, List.append_assoc, List.cons_append, List.nil_append, f1, Option.bind_some]; exact f2⟩
  | @map ms ps hs =>
    rw [YamlSpec.Node.All] at hg
    obtain ⟨ks, e1, e2, e3, e4⟩ := members_ok rt hs hg [] (by simp) List.nodup_nil (by simp [keys])
    have hv : Ok rt (.cont none .object ks) := ⟨(validAll_iff ks).2 e1, e2.1, fun k hk => ⟨k.get (by
        cases k with
        | none => exact absurd hk e2.2
        | some k => rfl), by simp, trivial⟩⟩
    refine ⟨.cont none .object ks, ?_, hv, ?_, ?_⟩
    · rw [doc]; congr 1; funext k; rw [e3 k]; simp [members]
    · intro kids key rest r hf
      obtain ⟨f, f1, f2⟩ := (e4 rest).big hf
      exact ⟨f + 1, by rw [nodeEvents, List.cons_append, data, List.append_assoc, List.cons_append, List.nil_append, f1, Option.bind_some]; exact f2⟩
    · intro kids k rest r hf
      obtain ⟨f, f1, f2⟩ := (e4 rest).big hf
      exact ⟨f + 1, by rw [nodeEvents, List.cons_append, data, List.append_assoc, List.cons_append, List.nil_append, f1, Option.bind_some]; exact f2⟩
theorem items_ok (rt : RealText) {ns : List YamlSpec.Node} {ds : List Doc} (h : NodeDocs ns ds) (hg : YamlSpec.AllItems (GoodValue rt) GoodKey ns) :
    ∃ es, docs es = ds ∧ ValidAll (fun _ => True) (fun _ => True) IsInt (fun v => rt v = v) es ∧
      ∀ kids key rest, Fin .array kids key (itemEvents ns ++ .seqEnd :: rest) (kids ++ es, rest) := by
  cases h with
  | nil => exact ⟨[], rfl, trivial, fun kids key rest => ⟨1, by rw [itemEvents, List.nil_append, data, List.append_nil]⟩⟩
  | @cons n ns d ds h1 h2 =>
    rw [YamlSpec.AllItems] at hg
    obtain ⟨e, a1, a2, a3, _⟩ := node_ok rt h1 hg.1
    obtain ⟨es, b1, b2, b3⟩ := items_ok rt h2 hg.2
    refine ⟨e :: es, by rw [docs, a1, b1], ⟨a2, b2⟩, fun kids key rest => ?_⟩
    rw [itemEvents, List.append_assoc]
    apply a3
    have := b3 (kids ++ [e]) none rest
    rwa [List.append_assoc] at this
theorem members_ok (rt : RealText) {ms : List (YamlSpec.Scalar × YamlSpec.Node)} {ps : List (Bytes × Doc)} (h : MemberDocs ms ps)
    (hg : YamlSpec.AllMembers (GoodValue rt) GoodKey ms) (kids : List Elem) (hk : ∀ e ∈ kids, Ok rt e) (hn : (keys kids).Nodup) (hs : none ∉ keys kids) :
    ∃ kids', (∀ e ∈ kids', Ok rt e) ∧ ((keys kids').Nodup ∧ none ∉ keys kids') ∧
      (∀ k, members kids' k = ((ps.reverse.find? fun x => x.1 = k).map Prod.snd).or (members kids k)) ∧
      ∀ rest, Fin .object kids none (memberEvents ms ++ .mapEnd :: rest) (kids', rest) := by
  cases h with
  | nil => exact ⟨kids, hk, ⟨hn, hs⟩, by simp, fun rest => ⟨1, by rw [memberEvents, List.nil_append, data]⟩⟩
  | @cons k n ms d ps h1 h2 =>
    rw [YamlSpec.AllMembers] at hg
    obtain ⟨e, a1, a2, _, a3⟩ := node_ok rt h1 hg.2.1
    obtain ⟨kids', b1, b2, b3, b4⟩ := members_ok rt h2 hg.2.2 (appendElement kids k.text e) (appendElement_valid hk a2) (nodup_append _ _ hn)
      (by rw [keys_append]; simp only [List.mem_append, List.mem_singleton, not_or]; exact ⟨fun hm => hs (List.mem_of_mem_erase hm), by simp⟩)
    refine ⟨kids', b1, b2, fun k' => ?_, fun rest => ?_⟩
    · rw [b3 k', members_append _ _ hn, a1, List.reverse_cons, List.find?_append]
      cases List.find? (fun x => decide (x.1 = k')) ps.reverse with
      | some x => simp
      | none =>
        by_cases hkk : k' = k.text
        · simp [hkk]
        · have : ¬ k.text = k' := fun e => hkk e.symm
          simp [hkk, this]
    · obtain ⟨f, hf⟩ := a3 kids k.text (memberEvents ms ++ .mapEnd :: rest) _ (b4 rest)
      refine ⟨f + 1, ?_⟩
      rw [memberEvents]
      simp only [List.cons_append]
      rw [data, key_text _ hg.1, List.append_assoc, hf]
end

/-! ## No abort -/

/-- Where libyaml is: in a sequence (or at the top), in a mapping before a key, in a mapping before a value. -/
inductive Frame where
  | seq | key | value
deriving DecidableEq

/-- After a value. -/
def Frame.next : Frame → Frame
  | .seq => .seq
  | .key => .value
  | .value => .key

/-- The events are nested as in a YAML stream with scalar keys. -/
def nested : List Frame → List Event → Bool
  | _, [] => true
  | st, .other :: evs => nested st evs
  | _, .streamEnd :: evs => evs.isEmpty
  | _, .none :: evs => evs.isEmpty
  | fr :: st, .scalar _ :: evs => nested (fr.next :: st) evs
  | fr :: st, .seqStart :: evs => fr != .key && nested (.seq :: fr.next :: st) evs
  | fr :: st, .mapStart :: evs => fr != .key && nested (.key :: fr.next :: st) evs
  | fr :: st, .seqEnd :: evs => fr == .seq && !st.isEmpty && nested st evs
  | fr :: st, .mapEnd :: evs => fr == .key && nested st evs
  | [], _ :: _ => false

theorem nested_prefix : ∀ (a b : List Event) (st : List Frame), nested st (a ++ b) = true → nested st a = true := by
  intro a
  induction a with
  | nil => intro b st _; rw [nested]
  | cons ev a ih =>
    intro b st h
    cases ev with
    | other => rw [List.cons_append, nested] at h; rw [nested]; exact ih b st h
    | streamEnd => rw [List.cons_append, nested] at h; rw [nested]; cases a <;> simp_all
    | none => rw [List.cons_append, nested] at h; rw [nested]; cases a <;> simp_all
    | _ =>
      cases st with
      | nil => simp [nested] at h
      | cons fr st =>
        rw [List.cons_append, nested] at h; rw [nested]
        try simp only [Bool.and_eq_true] at h ⊢
        first
        | exact ih b _ h
        | exact ⟨h.1, ih b _ h.2⟩

mutual
theorem nested_node : ∀ (n : YamlSpec.Node) (fr : Frame) (st : List Frame) (rest : List Event), fr ≠ .key →
    nested (fr :: st) (nodeEvents n ++ rest) = nested (fr.next :: st) rest
  | .scalar s, fr, st, rest, _ => by rw [nodeEvents, List.cons_append, List.nil_append, nested]
  | .seq ns, fr, st, rest, h => by
    have : (fr != Frame.key) = true := by simpa using h
    rw [nodeEvents, List.cons_append, nested, List.append_assoc, nested_items ns _ _, List.cons_append, List.nil_append, nested, this]
    simp
  | .map ms, fr, st, rest, h => by
    have : (fr != Frame.key) = true := by simpa using h
    rw [nodeEvents, List.cons_append, nested, List.append_assoc, nested_members ms _ _, List.cons_append, List.nil_append, nested, this]
    simp
theorem nested_items : ∀ (ns : List YamlSpec.Node) (st : List Frame) (rest : List Event),
    nested (.seq :: st) (itemEvents ns ++ rest) = nested (.seq :: st) rest
  | [], st, rest => by rw [itemEvents, List.nil_append]
  | n :: ns, st, rest => by
    rw [itemEvents, List.append_assoc, nested_node n .seq st _ (by decide), Frame.next, nested_items ns st rest]
theorem nested_members : ∀ (ms : List (YamlSpec.Scalar × YamlSpec.Node)) (st : List Frame) (rest : List Event),
    nested (.key :: st) (memberEvents ms ++ rest) = nested (.key :: st) rest
  | [], st, rest => by rw [memberEvents, List.nil_append]
  | (k, n) :: ms, st, rest => by
    rw [memberEvents, List.cons_append, nested, List.append_assoc]
    simp only [Frame.next]
    rw [nested_node n .value st _ (by decide), Frame.next, nested_members ms st rest]
end

theorem nested_stream (ns : List YamlSpec.Node) : nested [.seq] (streamEvents ns) = true := by
  have : ∀ rest, nested [.seq] ((ns.flatMap fun n => Event.other :: (nodeEvents n ++ [Event.other])) ++ rest) = nested [.seq] rest := by
    induction ns with
    | nil => intro rest; simp
    | cons n ns ih =>
      intro rest
      rw [List.flatMap_cons, List.append_assoc, List.cons_append, nested, List.append_assoc, nested_node n .seq [] _ (by decide), Frame.next, List.cons_append,
        List.nil_append, nested, ih]
  rw [streamEvents, List.cons_append, nested, this]
  rfl

/-- The container and the key fit the place. -/
def Fits : Frame → CType → Option Bytes → Prop
  | .seq, t, _ => t = .array
  | .key, t, key => t = .object ∧ key = none
  | .value, t, key => t = .object ∧ key.isSome

theorem scalarValue_some (s : Scalar) : ∃ e, scalarValue s = some e := by
  have hn : ∃ e, numberOrString s (s.tag.getD strTag) = some e := by
    rw [numberOrString]
    split
    · have h0 : (0 : UInt8) ∉ cstr s.value := by
        intro hm
        have := List.all_eq_true.1 (List.all_takeWhile (p := fun x : UInt8 => decide (x ≠ 0)) (l := s.value)) 0 hm
        simp at this
      obtain ⟨r, h1, _⟩ := numLoop_total (cstr s.value) 0 {} h0 (by simp) (by simp)
      rw [h1]
      cases r with
      | error e => exact ⟨_, rfl⟩
      | ok x => exact ⟨x.1, rfl⟩
    · exact ⟨_, rfl⟩
  rw [scalarValue]
  split
  · exact ⟨_, rfl⟩
  · rw [boolOrMore]
    split
    · split
      · exact ⟨_, rfl⟩
      · split
        · exact ⟨_, rfl⟩
        · exact hn
    · split
      · split <;> exact ⟨_, rfl⟩
      · exact hn

theorem data_nested : ∀ (f : Nat) (evs : List Event) (fr : Frame) (st : List Frame) (t : CType) (kids : List Elem) (key : Option Bytes),
    evs.length < f → nested (fr :: st) evs = true → Fits fr t key →
    ∃ r, data f t kids key evs = some r ∧ (nested st r.2 = true) := by
  intro f
  induction f with
  | zero => intro evs fr st t kids key h; omega
  | succ f ih =>
    intro evs fr st t kids key hf hn hfit
    have nest : ∀ (t' : CType) (fr' : Frame) (F : List Elem → List Elem) (evs' : List Event), evs'.length < f → Fits fr' t' none →
        nested (fr' :: fr.next :: st) evs' = true → Fits fr.next t none →
        ∃ r, ((data f t' [] none evs').bind fun r => data f t (F r.1) none r.2) = some r ∧ nested st r.2 = true := by
      intro t' fr' F evs' hl hft hnn hfn
      obtain ⟨r1, a1, a2⟩ := ih evs' fr' (fr.next :: st) t' [] none hl hnn hft
      have hlen := (data_fuel _ _ _ _ _ _ a1).1
      obtain ⟨r2, b1, b2⟩ := ih r1.2 fr.next st t (F r1.1) none (by omega) a2 hfn
      exact ⟨r2, by rw [a1, Option.bind_some, b1], b2⟩
    match evs, hn with
    | [], _ => exact ⟨_, by rw [data], by rw [nested]⟩
    | .none :: evs, hn =>
      rw [nested] at hn
      cases evs with
      | nil => exact ⟨_, by rw [data], by rw [nested]⟩
      | cons => cases hn
    | .streamEnd :: evs, hn =>
      rw [nested] at hn
      cases evs with
      | nil => exact ⟨_, by rw [data], by rw [nested]⟩
      | cons => cases hn
    | .other :: evs, hn =>
      rw [nested] at hn
      obtain ⟨r, h1, h2⟩ := ih evs fr st t kids key (by simp at hf; omega) hn hfit
      exact ⟨r, by rw [data, h1], h2⟩
    | .scalar s :: evs, hn =>
      rw [nested] at hn
      obtain ⟨e, he⟩ := scalarValue_some s
      cases fr with
      | seq =>
        have : t = .array := hfit
        subst this
        obtain ⟨r, h1, h2⟩ := ih evs .seq st .array (kids ++ [e]) none (by simp at hf; omega) hn rfl
        exact ⟨r, by rw [data, he, Option.bind_some, h1], h2⟩
      | key =>
        obtain ⟨rfl, rfl⟩ := hfit
        obtain ⟨r, h1, h2⟩ := ih evs .value st .object kids (some (cstr s.value)) (by simp at hf; omega) hn ⟨rfl, rfl⟩
        exact ⟨r, by rw [data, h1], h2⟩
      | value =>
        obtain ⟨rfl, hk⟩ := hfit
        obtain ⟨k, rfl⟩ := Option.isSome_iff_exists.1 hk
        obtain ⟨r, h1, h2⟩ := ih evs .key st .object (appendElement kids k e) none (by simp at hf; omega) hn ⟨rfl, rfl⟩
        exact ⟨r, by rw [data, he, Option.bind_some, h1], h2⟩
    | .seqStart :: evs, hn =>
      rw [nested, Bool.and_eq_true] at hn
      cases fr with
      | seq =>
        have : t = .array := hfit
        subst this
        rw [data]
        exact nest .array .seq (fun l => kids ++ [.cont none .array l]) evs (by simp at hf; omega) rfl hn.2 rfl
      | key => exact absurd hn.1 (by decide)
      | value =>
        obtain ⟨rfl, hk⟩ := hfit
        obtain ⟨k, rfl⟩ := Option.isSome_iff_exists.1 hk
        rw [data]
        exact nest .array .seq (fun l => appendElement kids k (.cont none .array l)) evs (by simp at hf; omega) rfl hn.2 ⟨rfl, rfl⟩
    | .mapStart :: evs, hn =>
      rw [nested, Bool.and_eq_true] at hn
      cases fr with
      | seq =>
        have : t = .array := hfit
        subst this
        rw [data]
        exact nest .object .key (fun l => kids ++ [.cont none .object l]) evs (by simp at hf; omega) ⟨rfl, rfl⟩ hn.2 rfl
      | key => exact absurd hn.1 (by decide)
      | value =>
        obtain ⟨rfl, hk⟩ := hfit
        obtain ⟨k, rfl⟩ := Option.isSome_iff_exists.1 hk
        rw [data]
        exact nest .object .key (fun l => appendElement kids k (.cont none .object l)) evs (by simp at hf; omega) ⟨rfl, rfl⟩ hn.2 ⟨rfl, rfl⟩
    | .seqEnd :: evs, hn =>
      rw [nested, Bool.and_eq_true, Bool.and_eq_true] at hn
      cases fr with
      | seq =>
        have : t = .array := hfit
        subst this
        exact ⟨_, by rw [data], hn.2⟩
      | key => exact absurd hn.1.1 (by decide)
      | value => exact absurd hn.1.1 (by decide)
    | .mapEnd :: evs, hn =>
      rw [nested, Bool.and_eq_true] at hn
      cases fr with
      | seq => exact absurd hn.1 (by decide)
      | key =>
        obtain ⟨rfl, rfl⟩ := hfit
        exact ⟨_, by rw [data], hn.2⟩
      | value => exact absurd hn.1 (by decide)

/-- Children already there stay there. -/
theorem data_prefix : ∀ (f : Nat) (kids : List Elem) (key : Option Bytes) (evs : List Event) (r : List Elem × List Event),
    data f .array kids key evs = some r → kids <+: r.1 := by
  intro f
  induction f with
  | zero => intro kids key evs r h; cases h
  | succ f ih =>
    intro kids key evs r h
    match evs, h with
    | [], h => rw [data] at h; cases h; exact List.prefix_rfl
    | .none :: evs, h => rw [data] at h; cases h; exact List.prefix_rfl
    | .streamEnd :: evs, h => rw [data] at h; cases h; exact List.prefix_rfl
    | .seqEnd :: evs, h => rw [data] at h; cases h; exact List.prefix_rfl
    | .mapEnd :: evs, h => cases h
    | .other :: evs, h => rw [data] at h; exact ih _ _ _ _ h
    | .scalar s :: evs, h =>
      rw [data, Option.bind_eq_some_iff] at h
      obtain ⟨e, _, h⟩ := h
      exact (List.prefix_append _ _).trans (ih _ _ _ _ h)
    | .seqStart :: evs, h =>
      rw [data, Option.bind_eq_some_iff] at h
      obtain ⟨e, _, h⟩ := h
      exact (List.prefix_append _ _).trans (ih _ _ _ _ h)
    | .mapStart :: evs, h =>
      rw [data, Option.bind_eq_some_iff] at h
      obtain ⟨e, _, h⟩ := h
      exact (List.prefix_append _ _).trans (ih _ _ _ _ h)

/-! ## The theorems -/

/-- C122: the first document of a YAML stream is read as the JSON document it stands for. `GoodValue` excludes what the findings below are about. -/
theorem C122_read_partial (rt : RealText) (n : YamlSpec.Node) (more : List YamlSpec.Node) (d : Doc) (h : NodeDoc n d) (hg : n.All (GoodValue rt) GoodKey) :
    ∃ e, parseString rt (streamEvents (n :: more)) = some e ∧ doc e = d := by
  obtain ⟨e, a1, a2, a3, _⟩ := node_ok rt h hg
  let rest : List Event := Event.other :: ((more.flatMap fun n => Event.other :: (nodeEvents n ++ [Event.other])) ++ [Event.streamEnd])
  have hrest : nested [.seq] rest = true := by
    have := nested_stream more
    simp only [streamEvents, List.cons_append] at this
    exact this
  obtain ⟨r, r1, r2⟩ := data_nested (rest.length + 1) rest .seq [] .array ([] ++ [e]) none (by omega) hrest rfl
  have hfin := a3 [] none rest r ⟨_, r1⟩
  have hev : streamEvents (n :: more) = .other :: .other :: (nodeEvents n ++ rest) := by
    simp only [streamEvents, rest, List.flatMap_cons, List.cons_append, List.append_assoc, List.nil_append]
  have hall : data ((streamEvents (n :: more)).length + 1) .array [] none (streamEvents (n :: more)) = some r := by
    rw [hev, data]
    simp only [List.length_cons]
    rw [data]
    exact hfin.at _ (by omega)
  obtain ⟨tl, ht⟩ := data_prefix _ _ _ _ _ r1
  obtain ⟨e', c1, c2, _⟩ := C28_copy_partial rt e (fun _ => True) (fun _ => True) a2
  refine ⟨e', ?_, c2.trans a1⟩
  rw [parseString, hall, Option.bind_some, ← ht]
  exact c1

/-- C122: however far libyaml gets in a stream with scalar keys before an error, and whatever the scalars, the events are read without abort; what
remains to go wrong is the copy of the first document, and that there may be none (see the findings). -/
theorem C122_no_abort (rt : RealText) (ns : List YamlSpec.Node) (m : Nat) :
    ∃ r, data (((streamEvents ns).take m).length + 1) .array [] none ((streamEvents ns).take m) = some r ∧
      parseString rt ((streamEvents ns).take m) = r.1.head?.bind (copy rt) := by
  have h := nested_prefix ((streamEvents ns).take m) ((streamEvents ns).drop m) [.seq] (by rw [List.take_append_drop]; exact nested_stream ns)
  obtain ⟨r, h1, _⟩ := data_nested _ _ .seq [] .array [] none (Nat.lt_succ_self _) h rfl
  exact ⟨r, h1, by rw [parseString, h1, Option.bind_some]⟩

/-! ## Cases and findings -/

/-- `{a: 1, b: [yes, ~, "1"], a: x}` -/
def sample : YamlSpec.Node :=
  .map [(.plain [97], .scalar (.plain [49])), (.plain [98], .seq [.scalar (.plain [121, 101, 115]), .scalar (.plain [126]), .scalar (.quoted [49])]),
    (.plain [97], .scalar (.plain [120]))]

theorem not_number {t : Bytes} (h : ∃ e, numLoop t 0 {} = some (.error e)) : ¬ NumberText t := by
  intro hn
  obtain ⟨e, he⟩ := h
  rw [number_ok hn] at he
  cases he

theorem noLeading {t : Bytes} (h : t.all (fun c => !isSep c) = true) : NoLeadingNumber (.plain t) := by
  intro a c b e _ hc
  have h1 : isSep c = false := by simpa using List.all_eq_true.1 h c (by rw [e]; simp)
  rcases hc with (rfl | rfl | rfl | rfl) | rfl | rfl | rfl <;> exact absurd h1 (by decide)

theorem good_plain (rt : RealText) {t : Bytes} (h0 : 0 ∉ t) (h : t.all (fun c => !isSep c) = true) (hi : IsInt t ∨ ¬ NumberText t) (hd : 46 ∉ t) : GoodValue rt (.plain t) := by
  refine ⟨h0, noLeading h, fun u hu => ?_, fun u hu => ?_⟩
  · cases hu with
    | integer hn _ => rcases hi with hi | hi; exact hi; exact absurd hn hi
  · cases hu with
    | real _ h => exact absurd h hd

theorem good_quoted (rt : RealText) {t : Bytes} (h0 : 0 ∉ t) : GoodValue rt (.quoted t) :=
  ⟨h0, trivial, fun u hu => (by cases hu), fun u hu => (by cases hu)⟩

theorem one_number : NumberText [49] := by
  obtain ⟨t, post, g1, g2, g3, _⟩ := numLoop_sound [49] 0 {} [] (by decide) numInv_init (.prim none .integer [49]) 0 rfl
  rw [List.nil_append] at g3
  match t, post, g1 with
  | [], _, _ => obtain ⟨_, b, c, h, _⟩ := g3; simp at h
  | [x], [], h => simp at h; subst h; exact g3
  | _ :: _ :: _, _, h => simp at h
  | [x], _ :: _, h => simp at h

theorem one_isInt : IsInt [49] := ⟨1, by omega, by omega, by rw [← intText_eq]; rfl⟩

/-- The sample meets the hypotheses of `C122_read_partial`. -/
example (rt : RealText) : sample.All (GoodValue rt) GoodKey ∧ ∃ d, NodeDoc sample d := by
  have yes : ¬ NumberText [121, 101, 115] := not_number ⟨_, rfl⟩
  have tilde : ¬ NumberText [126] := not_number ⟨_, rfl⟩
  have x : ¬ NumberText [120] := not_number ⟨_, rfl⟩
  refine ⟨?_, ?_⟩
  · simp only [sample, YamlSpec.Node.All, YamlSpec.AllMembers, YamlSpec.AllItems, GoodKey, YamlSpec.Scalar.text, and_true]
    exact ⟨by decide, good_plain rt (by decide) (by decide) (.inl one_isInt) (by decide), by decide, ⟨good_plain rt (by decide) (by decide) (.inr yes) (by decide),
      good_plain rt (by decide) (by decide) (.inr tilde) (by decide), good_quoted rt (by decide)⟩, by decide, good_plain rt (by decide) (by decide) (.inr x) (by decide)⟩
  · exact ⟨_, .map (.cons (.scalar (.integer one_number (by decide))) (.cons (.seq (.cons (.scalar (.true (by decide))) (.cons (.scalar (.null (by decide)))
      (.cons (.scalar .quoted) .nil)))) (.cons (.scalar (.text (by decide) (by decide) (by decide) x)) .nil)))⟩

/-- The claim for a single plain scalar. -/
def ReadsPlain (rt : RealText) (t : Bytes) (d : Doc) : Prop := ∃ e, parseString rt (streamEvents [.scalar (.plain t)]) = some e ∧ doc e = d

theorem plain_data (v : Bytes) : data ((streamEvents [.scalar (.plain v)]).length + 1) .array [] none (streamEvents [.scalar (.plain v)]) =
      (scalarValue (scalarEvent (.plain v))).bind fun e => some ([e], []) := by
  simp only [streamEvents, List.flatMap_cons, List.flatMap_nil, List.append_nil, nodeEvents, List.cons_append, List.nil_append, List.length_cons, List.length_nil, data]

theorem plain_int (rt : RealText) (v w : Bytes) (x : Int) (h1 : scalarValue (scalarEvent (.plain v)) = some (.prim none .integer w)) (h2 : w = intText x)
    (h3 : -2 ^ 63 ≤ x) (h4 : x < 2 ^ 63) (u : Bytes) (h5 : intText (Str.toInt x) = u) : ReadsPlain rt v (.integer u) := by
  refine ⟨.prim none .integer u, ?_, rfl⟩
  rw [parseString, plain_data, h1]
  simp only [Option.bind_some, List.head?_cons]
  rw [copy, primCopy, h2, intText_eq, getAsInteger_ok _ h3 h4]
  exact congrArg (fun u => some (Elem.prim none .integer u)) h5

/-- Finding: a plain scalar that begins with a number and a blank is cut to the number: `12 monkeys` is read as 12. -/
theorem C122_leading_number_negated (rt : RealText) :
    ScalarDoc (.plain [49, 50, 32, 109, 111, 110, 107, 101, 121, 115]) (.string [49, 50, 32, 109, 111, 110, 107, 101, 121, 115]) ∧
    ReadsPlain rt [49, 50, 32, 109, 111, 110, 107, 101, 121, 115] (.integer [49, 50]) := by
  refine ⟨.text (by decide) (by decide) (by decide) ?_, plain_int rt _ [49, 50] 12 (by rfl) (by decide +kernel) (by omega) (by omega) _ (by decide +kernel)⟩
  intro h
  have := h.1 [49, 50] 32 [109, 111, 110, 107, 101, 121, 115] rfl
  rcases this with ⟨h, _⟩ | ⟨h, _⟩ | ⟨h, _⟩ | ⟨h, _⟩ | ⟨h | h, _⟩ <;> revert h <;> simp [IsDigit] <;> decide

/-- Finding: an integer above 2^31-1 is changed (3000000000 becomes -1294967296), and one with an exponent ends the process. -/
theorem C122_integers_negated (rt : RealText) :
    ReadsPlain rt [51, 48, 48, 48, 48, 48, 48, 48, 48, 48] (.integer [45, 49, 50, 57, 52, 57, 54, 55, 50, 57, 54]) ∧
    parseString rt (streamEvents [.scalar (.plain [49, 101, 53])]) = none := by
  refine ⟨plain_int rt _ [51, 48, 48, 48, 48, 48, 48, 48, 48, 48] 3000000000 (by rfl) (by decide +kernel) (by omega) (by omega) _ (by decide +kernel), ?_⟩
  rw [parseString, plain_data]
  rfl

/-- Finding: the branch that gives other texts tagged `!!bool` a truth value is never reached (json-yaml.c:97-106); they become strings. -/
theorem C122_bool_tag_negated (t : Bytes) (h0 : 0 ∉ t) (h1 : t ∉ YamlSpec.trueWords) (h2 : t ∉ YamlSpec.falseWords) :
    scalarValue (scalarEvent (.tagged YamlSpec.tagBool t)) = some (stringCreate t) := by
  rw [scalarValue]
  simp only [scalarEvent, Option.getD_some, show (YamlSpec.tagBool == nullTag) = false by decide, Bool.or_false, Bool.false_and, Bool.false_eq_true, if_false]
  rw [boolOrMore]
  simp only [Bool.eq_false_iff.2 (fun e => h1 ((true_iff t h0).1 e)), Bool.eq_false_iff.2 (fun e => h2 ((false_iff t h0).1 e))]
  rw [numberOrString, cstr_id h0]
  rfl

/-- Finding: aliases are skipped, so that in `{a: *x, b: c}` the key `b` is taken for the value of `a`. -/
theorem C122_alias_negated (rt : RealText) :
    ∃ e, parseString rt [.other, .other, .mapStart, .scalar (scalarEvent (.plain [97])), .other, .scalar (scalarEvent (.plain [98])), .scalar (scalarEvent (.plain [99])),
      .mapEnd, .other, .streamEnd] = some e ∧ e = .cont none .object [.prim (some [97]) .string [98]] := ⟨_, rfl, rfl⟩

/-- Finding: a text without a document makes `JsonParseYamlString` read outside its array. -/
theorem C122_empty_negated (rt : RealText) : parseString rt (streamEvents []) = none := rfl

/-- Finding: a syntax error is not reported: of `[a, b` (an error after `a`) the part `["a"]` is returned as success. -/
theorem C122_error_negated (rt : RealText) :
    parseString rt ((streamEvents [.seq [.scalar (.plain [97]), .scalar (.plain [98])]]).take 4) = some (.cont none .array [.prim none .string [97]]) := rfl

/-- Finding: a mapping or sequence as a key ends the process. -/
theorem C122_complex_key_negated (rt : RealText) : parseString rt [.other, .other, .mapStart, .seqStart, .seqEnd, .scalar (scalarEvent (.plain [97])), .mapEnd, .other, .streamEnd] = none := rfl

end Yaml
