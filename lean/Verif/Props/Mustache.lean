import Verif.Lemmas.MustacheDelim
/-! # C81–C84: rendering Mustache templates -/
namespace Mustache
open Json (Bytes Elem)
open MustacheSpec

/-- How a call of `MustacheRender` ends: it returns true or false, a fatal log message ends the process with `abort` (ProgrammingError) or `exit`, or bytes are written
past the end of a delimiter array. -/
inductive Ending where
  | ok | fail | abort | exit | overflow
  deriving DecidableEq

/-- The ending, with the contents of the output buffer. -/
def shown : Res → Ending × Bytes
  | .ok st _ => (.ok, st.out)
  | .fail st => (.fail, st.out)
  | .abort st => (.abort, st.out)
  | .exit st => (.exit, st.out)
  | .overflow st => (.overflow, st.out)

def endingOf : Option Stop → Ending
  | none => .ok
  | some .fail => .fail
  | some .abort => .abort
  | some .exit => .exit

/-! ## C81 -/

theorem start_delim : DelimOK [123, 123] ∧ DelimOK [125, 125] := by
  refine ⟨⟨by simp, by decide, by decide⟩, ⟨by simp, by decide, by decide⟩⟩

theorem start_ok {out : Bytes} {root : Elem} (hw : WF root) : StOK { out, root, stack := [some []], ds := [123, 123], de := [125, 125] } :=
  ⟨hw, start_delim.1, start_delim.2, by intro p hp; simp at hp; subst hp; rfl⟩

/-- C81. For every template — one that changes the delimiters must have no blank-free word of ten bytes or more — and all data, rendering ends without reading or writing out of bounds; what was in the
output buffer stays at its front; when it succeeds the data holds what it held, but for the order of the members of objects. Missing: templates with `{{=` and such a word, see
`C81_delimiter_overflow`. -/
theorem C81_total_partial (rt : RealText) (out t : Bytes) (root : Elem) (h0 : (0 : UInt8) ∉ t) (hw : WF root) (hd : ¬ [123, 123, 61] <:+: t ∨ ¬ TenWord t) :
    ∃ r, mustacheRender rt out t root = some r ∧ (shown r).1 ≠ .overflow ∧ out <+: (shown r).2 ∧ ∀ st se, r = .ok st se → WF st.root ∧ Sim root st.root := by
  obtain ⟨r, h1, h2⟩ := render_ok rt h0 (t.length + 1) { out, root, stack := [some []], ds := [123, 123], de := [125, 125] } 0 none false false (start_ok hw)
    ⟨Nat.zero_le _, Or.inr (Or.inl rfl)⟩ (by omega) (by simp)
  refine ⟨r, h1, ?_⟩
  cases r with
  | ok st se => exact ⟨by simp [shown], h2.2.2.1, by intro s e he; cases he; exact ⟨h2.1.wf, h2.2.1⟩⟩
  | fail st => exact ⟨by simp [shown], h2, by simp⟩
  | abort st => exact ⟨by simp [shown], h2, by simp⟩
  | exit st => exact ⟨by simp [shown], h2, by simp⟩
  | overflow st =>
    rcases hd with hd | hd
    · exact absurd (render_noDelim rt hd _ _ _ _ _ _ _ ⟨rfl, rfl⟩ h1) (by simp [Calm])
    · exact absurd h2.2 hd

/-- Without the restriction to words of less than ten bytes, the only other ending is the overflow of a delimiter array. -/
theorem C81_total_any (rt : RealText) (out t : Bytes) (root : Elem) (h0 : (0 : UInt8) ∉ t) (hw : WF root) :
    ∃ r, mustacheRender rt out t root = some r ∧ out <+: (shown r).2 := by
  obtain ⟨r, h1, h2⟩ := render_ok rt h0 (t.length + 1) { out, root, stack := [some []], ds := [123, 123], de := [125, 125] } 0 none false false (start_ok hw)
    ⟨Nat.zero_le _, Or.inr (Or.inl rfl)⟩ (by omega) (by simp)
  refine ⟨r, h1, ?_⟩
  cases r with
  | ok st se => exact h2.2.2.1
  | fail st => exact h2
  | abort st => exact h2
  | exit st => exact h2
  | overflow st => exact h2.1

private def B (s : String) : Bytes := s.toUTF8.toList
private def num (n : Option Bytes) (s : String) : Elem := .prim n .integer (B s)
private def str (n : Option Bytes) (s : String) : Elem := .prim n .string (B s)
private def obj (ks : List Elem) : Elem := .cont none .object ks
private def go (t : String) (d : Elem) : Option (Ending × Bytes) := (mustacheRender id [] (B t) d).map shown

/-- C81 fails without that restriction: a delimiter of ten bytes is written past the end of its array (mustache.c:302, 309: the checks are for more than ten). -/
theorem C81_delimiter_overflow : ∃ t root, (0 : UInt8) ∉ t ∧ WF root ∧ (mustacheRender id [] t root).map shown = some (.overflow, []) :=
  ⟨B "{{=0123456789 %>=}}", obj [], by decide +kernel, by simp [obj, WF, JsonSpec.Valid, JsonSpec.ValidAll, JsonSpec.keys], by decide +kernel⟩

/-- The same for the second delimiter; one of eleven bytes is refused. -/
theorem C81_second_delimiter_overflow : (mustacheRender id [] (B "{{=<% 0123456789=}}") (obj [])).map shown = some (.overflow, []) ∧
    (mustacheRender id [] (B "{{=<% 0123456789a=}}") (obj [])).map shown = some (.fail, []) ∧
    (mustacheRender id [] (B "{{=<% 012345678=}}<%x012345678") (obj [str (some (B "x")) "y"])).map shown = some (.ok, B "y") := by decide +kernel

/-- Meeting C81's hypotheses, with delimiters changed on the way. -/
example : (0 : UInt8) ∉ B "{{#l}}\n{{.}},\n{{/l}}\n{{=<% %>=}}<%x%>" ∧ go "{{#l}}\n{{.}},\n{{/l}}\n{{=<% %>=}}<%x%>" (obj [.cont (some (B "l")) .array [num none "1", num none "2"], str (some (B "x")) "a<b"]) =
    some (.ok, B "1,\n2,\na&lt;b") := by decide +kernel

/-! ## C82 -/

theorem tree_result {env : Env} {tpl : Tpl} {root : Elem} {out : Bytes} (hwf : tpl.wf [] []) (h0 : (0 : UInt8) ∉ tpl.print) (hw : WF root)
    (hser : tpl.serial = true → Stable env root) :
    (mustacheRender env.real out tpl.print root).map shown =
      some (endingOf (tpl.eval env true false none [some root]).result.1, out ++ (tpl.eval env true false none [some root]).result.2) ∧
    ∀ st se, mustacheRender env.real out tpl.print root = some (.ok st se) → st.root = root := by
  have hl : Live root { out, root, stack := [some []], ds := [123, 123], de := [125, 125] } :=
    ⟨rfl, rfl, rfl, by intro p hp; simp at hp; subst hp; rfl⟩
  have hv : vals root [some []] = [some root] := by simp [vals, get]
  have h := tree_ok (env := env) h0 hw tpl [] [] [] { out, root, stack := [some []], ds := [123, 123], de := [125, 125] } none false false (by simp) plain_nil (by simpa using hwf) hser hl (by simp)
  simp only [hv] at h
  obtain ⟨r, hr, _⟩ := render_ok env.real h0 (tpl.print.length + 1) { out, root, stack := [some []], ds := [123, 123], de := [125, 125] } 0 none false false (start_ok hw)
    ⟨Nat.zero_le _, Or.inr (Or.inl rfl)⟩ (by omega) (by simp)
  have hm : mustacheRender env.real out tpl.print root = some r := hr
  have huniq : ∀ r', Runs env.real tpl.print { out, root, stack := [some []], ds := [123, 123], de := [125, 125] } 0 none false false r' → r = r' := by
    rintro r' ⟨fuel, hf⟩
    have a := render_mono_le env.real tpl.print (Nat.le_max_left fuel (tpl.print.length + 1)) hf
    have b := render_mono_le env.real tpl.print (Nat.le_max_right fuel (tpl.print.length + 1)) hr
    rw [a] at b; cases b; rfl
  cases he : tpl.eval env true false none [some root] with
  | ok text ss =>
    rw [he] at h
    obtain ⟨pre', acc', st', e1, e2, e3, _, _, e4, e5⟩ := h
    have hrun : Runs env.real tpl.print st' pre'.length none false false (.ok { st' with out := st'.out ++ acc' } none) := by
      refine ⟨1, ?_⟩
      have ht : tpl.print = pre' ++ acc' := by simpa using e1.symm
      rw [render, show nextTag tpl.print pre'.length st'.ds st'.de = some { type := .none } by rw [e3.ds, e3.de]; exact nextTag_end ht e2]
      simp only [Option.bind_eq_bind, Option.bind_some, bounds, isTagTypeRenderable]
      simp [contentBytes, ht]
    have := huniq _ (by simpa using e5 _ hrun)
    rw [hm, this]
    have e4' : st'.out ++ acc' = out ++ text := by simpa [seen] using e4
    refine ⟨by simp [shown, Outcome.result, endingOf, e4'], ?_⟩
    intro st se h
    cases h
    exact e3.data
  | stop text w =>
    rw [he] at h
    obtain ⟨st', e1, e2⟩ := h
    have := huniq _ (by simpa using e1)
    have e2' : st'.out = out ++ text := by simpa [seen] using e2
    rw [hm, this]
    refine ⟨by cases w <;> simp [shown, resOf, Outcome.result, endingOf, e2'], ?_⟩
    intro st se h
    cases w <;> cases h

/-- C82. The output for the text of any well-formed template tree, over any data whose objects have their members in key order, is what the tree evaluates to; and the data is left unchanged. -/
theorem C82_render (real : Bytes → Bytes) (tpl : Tpl) (root : Elem) (out : Bytes) (hwf : tpl.wf [] []) (h0 : (0 : UInt8) ∉ tpl.print) (hw : WF root) (hi : InOrder root) :
    (mustacheRender real out tpl.print root).map shown =
      some (endingOf (tpl.eval (writerEnv real) true false none [some root]).result.1, out ++ (tpl.eval (writerEnv real) true false none [some root]).result.2) ∧
    ∀ st se, mustacheRender real out tpl.print root = some (.ok st se) → st.root = root :=
  tree_result (env := writerEnv real) hwf h0 hw fun _ => stable_inOrder hw hi real

/-- C82. Without `{{%x}}` and `{{$x}}`, any data will do. -/
theorem C82_render_any (env : Env) (tpl : Tpl) (root : Elem) (out : Bytes) (hwf : tpl.wf [] []) (h0 : (0 : UInt8) ∉ tpl.print) (hw : WF root) (hs : tpl.serial = false) :
    (mustacheRender env.real out tpl.print root).map shown =
      some (endingOf (tpl.eval env true false none [some root]).result.1, out ++ (tpl.eval env true false none [some root]).result.2) ∧
    ∀ st se, mustacheRender env.real out tpl.print root = some (.ok st se) → st.root = root :=
  tree_result hwf h0 hw (by simp [hs])

/-- C82 needs the order: serialising sorts the members under the loop that walks over them, and one is rendered twice, another never. -/
theorem C82_unordered_witness : ∃ root, WF root ∧ go "{{#o}}{{@}}{{$-top-}}{{/o}}" root = some (.ok, B "b{\"o\":{\"a\":2,\"b\":1}}b{\"o\":{\"a\":2,\"b\":1}}") :=
  ⟨obj [.cont (some (B "o")) .object [num (some (B "b")) "1", num (some (B "a")) "2"]],
    ⟨⟨⟨⟨trivial, trivial, trivial⟩, by decide +kernel, by decide +kernel⟩, trivial⟩, by decide +kernel, by decide +kernel⟩, by decide +kernel⟩

/-- C82. A section that is never closed makes the call fail; what the section hides does not show even then. -/
theorem C82_unclosed (real : Bytes → Bytes) (inv : Bool) (lay : Layout) (n : Name) (s : Bytes) (root : Elem) (out : Bytes) (hn : n.wf) (hs : PlainText s) (hlay : lay.wf [] s)
    (h0 : (0 : UInt8) ∉ lay.print (openTag inv n) ++ s) (hw : WF root) (hd : denote [some root] n.name = none) :
    (mustacheRender real out (lay.print (openTag inv n) ++ s) root).map shown = some (.fail, out ++ if inv then s else []) := by
  generalize ht : lay.print (openTag inv n) ++ s = t at h0 ⊢
  have ht' : t = [] ++ [] ++ lay.print (tag ((if inv then 94 else 35) :: n.print)) ++ s := by rw [← ht]; rfl
  obtain ⟨lead, trail, co, l, e1, e2, e3, f1, f2, f3⟩ := nextTag_lay (ty := if inv then .inverted else .section) h0 ht' plain_nil (comment_of_not_mem (name_no_brace hn))
    (by cases inv <;> rfl) (by cases inv <;> rfl) hlay
  have f3 := f3 n hn rfl
  have hz : (0 : UInt8) ∉ n.name := by
    intro hm
    exact h0 (by rw [ht', e1]; simp [tag, Name.print, hm])
  have hv : vals root [some []] = [some root] := by simp [vals, get]
  obtain ⟨var, v1, v2, v3⟩ := lookupVariable_eq (st := { out, root, stack := [some []], ds := [123, 123], de := [125, 125] }) hw (by intro p hp; simp at hp; subst hp; rfl) (by simp) hz
  rw [hv, hd] at v2
  have hvar : var = none := by
    cases var with
    | none => rfl
    | some p => have := v3 p rfl; rw [Option.bind_some] at v2; rw [v2] at this; cases this
  subst hvar
  simp only [List.length_nil, Nat.zero_add] at f1 f2
  have hend : nextTag t (lay.print (tag ((if inv then 94 else 35) :: n.print))).length [123, 123] [125, 125] = some { type := .none } :=
    nextTag_end ht.symm hs
  have hdrop : t.drop (lay.print (tag ((if inv then 94 else 35) :: n.print))).length = s := by
    rw [← ht]; exact List.drop_left
  obtain ⟨f, hf⟩ : ∃ f, t.length + 1 = f + 1 + 1 := ⟨t.length - 1, by
    have : 0 < t.length := by rw [ht', e1]; simp [tag]; omega
    omega⟩
  unfold mustacheRender
  rw [hf, render, f1]
  simp only [Option.bind_eq_bind, Option.bind_some, f2, f3, contentBytes]
  have b1 : (TagType.section == TagType.inverted) = false := rfl
  have b2 : (TagType.inverted == TagType.inverted) = true := rfl
  cases inv <;> simp only [Bool.false_eq_true, if_false, if_true] at hend hdrop <;>
    simp [b1, b2, v1, plan, render, hend, hdrop, bounds, isTagTypeRenderable, contentBytes, shown]

example : go "{{#x}}abc" (obj []) = some (.fail, []) ∧ go "{{^x}}\nabc" (obj []) = some (.fail, B "abc") := by decide +kernel

/-! A template, data in order, and what comes of it. -/

/-- `Hi {{name}},\n{{! letter }}\n{{#items}}\n {{@}}: {{.}}\n{{/items}}\n{{^none}}-{{/none}}{{$rest}}` -/
def sample : Tpl :=
  .text (B "Hi ") <| .var .escaped ⟨[], B "name", []⟩ <| .text (B ",\n") <| .comment (.line [] [10]) (B " letter ") <|
  .section false (.line [] [10]) ⟨[], B "items", []⟩
    (.text (B " ") <| .var .escaped ⟨[], B "@", []⟩ <| .text (B ": ") <| .var .triple ⟨[32], B ".", [32]⟩ <| .text (B "\n") .nil)
    (.line [] [10]) ⟨[], B "items", []⟩ <|
  .section true .inline ⟨[], B "none", []⟩ (.text (B "-") .nil) .inline ⟨[], B "none", []⟩ <|
  .var .compact ⟨[], B "rest", []⟩ .nil

def sampleData : Elem := obj [.cont (some (B "items")) .array [str none "a<b", num none "7"], str (some (B "name")) "R&D",
  .cont (some (B "rest")) .object [num (some (B "a")) "2", num (some (B "b")) "1"]]

example : sample.print = B "Hi {{name}},\n{{! letter }}\n{{#items}}\n {{@}}: {{{ . }}}\n{{/items}}\n{{^none}}-{{/none}}{{$rest}}" := by decide +kernel
example : (0 : UInt8) ∉ sample.print := by decide +kernel
example : (sample.eval (writerEnv id) true false none [some sampleData]).result = (none, B "Hi R&amp;D,\n 0: a<b\n 1: 7\n-{\"a\":2,\"b\":1}") := by decide +kernel
example : WF sampleData :=
  ⟨⟨⟨trivial, trivial, trivial⟩, trivial, ⟨⟨trivial, trivial, trivial⟩, by decide +kernel, by decide +kernel⟩, trivial⟩, by decide +kernel, by decide +kernel⟩

example : InOrder sampleData := by
  simp only [sampleData, obj, str, num, InOrder, InOrderAll, List.pairwise_cons, List.mem_cons, List.not_mem_nil, or_false, forall_eq_or_imp, forall_eq, List.Pairwise.nil, Elem.name]
  simp only [Option.some.injEq, exists_and_left, exists_eq_left', false_implies, implies_true, and_true, true_and]
  have dec : ∀ a b : Bytes, Str.cmpSign id a b = -1 → OrderSpec.Less id a b := by
    intro a b h
    rcases Str.cmpSign_spec id a b with ⟨_, k⟩ | ⟨k, _⟩ | ⟨k, _⟩
    · exact k
    · omega
    · omega
  exact ⟨dec _ _ (by decide +kernel), ⟨dec _ _ (by decide +kernel), dec _ _ (by decide +kernel)⟩, dec _ _ (by decide +kernel)⟩

theorem pair_dec (x : UInt8) (s : Bytes) (h : ((s.zip s.tail).all fun y => y.1 != x || y.2 != x) && s.getLast? != some x) : ¬ [x, x] <:+: s ∧ ¬ [x] <:+ s := by
  simp only [Bool.and_eq_true, bne_iff_ne, ne_eq] at h
  constructor
  · rintro ⟨a, b, e⟩
    have := List.all_eq_true.mp h.1 (x, x) (by
      rw [← e]
      clear h e
      induction a with
      | nil => simp
      | cons y a ih =>
        cases a with
        | nil => simp
        | cons z a => exact List.mem_cons_of_mem _ ih)
    simp at this
  · rintro ⟨a, e⟩
    exact h.2 (by rw [← e]; simp)

theorem not_alone {pre post : Bytes} {c : UInt8} (h : post.head? = some c) (hc : gap c = false) (hn : c ≠ 10) : ¬ Alone pre post := by
  rintro ⟨_, a, b, e, h1, h2⟩
  subst e
  cases a with
  | nil =>
    rcases h2 with rfl | ⟨d, rfl⟩
    · simp at h
    · simp at h; exact hn h.symm
  | cons x a =>
    simp at h
    subst h
    simp [hc] at h1

private theorem nameOK (n : Name) (h : n.left.all blank && n.right.all blank && !n.name.contains 125 && (n.name.head?.all fun c => !blank c) && (n.name.getLast?.all fun c => !blank c)) : n.wf := by
  simp only [Bool.and_eq_true] at h
  obtain ⟨⟨⟨⟨h1, h2⟩, h3⟩, h4⟩, h5⟩ := h
  refine ⟨h1, h2, by simpa using h3, ?_, ?_⟩
  · intro c hc; rw [hc] at h4; simpa using h4
  · intro c hc; rw [hc] at h5; simpa using h5

private theorem lineOK {pre post : Bytes} (h : pre.getLast? = some 10) : Layout.wf pre post (.line [] [10]) :=
  ⟨Or.inr (by
    obtain ⟨a, ha⟩ := List.getLast?_eq_some_iff.mp h
    exact ⟨a, ha⟩), rfl, [], rfl, Or.inl rfl⟩

example : sample.wf [] [] := by
  refine ⟨pair_dec _ _ (by decide +kernel), nameOK _ (by decide +kernel), fun _ => by decide +kernel, pair_dec _ _ (by decide +kernel), pair_dec _ _ (by decide +kernel), lineOK (by decide +kernel),
    nameOK _ (by decide +kernel), nameOK _ (by decide +kernel), lineOK (by decide +kernel), ?_, lineOK (by decide +kernel),
    nameOK _ (by decide +kernel), nameOK _ (by decide +kernel), not_alone (c := 45) (by decide +kernel) (by decide) (by decide), ⟨pair_dec _ _ (by decide +kernel), trivial⟩,
    not_alone (c := 123) (by decide +kernel) (by decide) (by decide), nameOK _ (by decide +kernel), (fun h => by cases h), trivial⟩
  exact ⟨pair_dec _ _ (by decide +kernel), nameOK _ (by decide +kernel), fun _ => by decide +kernel, pair_dec _ _ (by decide +kernel), nameOK _ (by decide +kernel), (fun h => by cases h),
    pair_dec _ _ (by decide +kernel), trivial⟩

/-! ## C83 -/

/-- C83. With lexical scoping a template leaves the scopes as they were. -/
theorem C83_lexical_scopes (env : Env) (tpl : Tpl) (skip : Bool) (key : Option Bytes) (ss ss' : Scopes) (text : Bytes) (h : tpl.eval env false skip key ss = .ok text ss') : ss' = ss :=
  eval_lexical env tpl skip key ss text ss' h

/-- C83 (part): where sections are not nested, do not iterate over objects, and `.` and `@` are used in sections only, names are resolved as the lexical scopes say. Missing: templates with
nested sections, for which it is false (`C83_not_lexical`). -/
theorem C83_flat_lexical_partial (real : Bytes → Bytes) (tpl : Tpl) (root : Elem) (out : Bytes) (hf : tpl.flat = true) (hwf : tpl.wf [] []) (h0 : (0 : UInt8) ∉ tpl.print) (hw : WF root)
    (hi : InOrder root) :
    (mustacheRender real out tpl.print root).map shown =
      some (endingOf (tpl.eval (writerEnv real) false false none [some root]).result.1, out ++ (tpl.eval (writerEnv real) false false none [some root]).result.2) := by
  rw [(C82_render real tpl root out hwf h0 hw hi).1]
  rcases flat_same (writerEnv real) tpl hf false none [some root] [some root] ⟨by simp, [], rfl⟩ with ⟨text, a', h1, h2, _⟩ | ⟨text, w, h1, h2⟩
  · rw [h1, h2]; simp [Outcome.result]
  · rw [h1, h2]

/-- C83 (part): names are resolved as the lexical scopes say, however sections that are rendered once are nested, and however they are nested in sections over lists. Missing: sections over lists
(or over the members of objects) inside other sections, for which it is false (`C83_not_lexical`, `C83_row_leak`). -/
theorem C83_nested_lexical_partial (real : Bytes → Bytes) (tpl : Tpl) (root : Elem) (out : Bytes) (hf : tpl.calm false [some root] = true) (hwf : tpl.wf [] []) (h0 : (0 : UInt8) ∉ tpl.print) (hw : WF root)
    (hi : InOrder root) :
    (mustacheRender real out tpl.print root).map shown =
      some (endingOf (tpl.eval (writerEnv real) false false none [some root]).result.1, out ++ (tpl.eval (writerEnv real) false false none [some root]).result.2) := by
  rw [(C82_render real tpl root out hwf h0 hw hi).1]
  rcases calm_same (writerEnv real) tpl [some root] hf false none [some root] ⟨by simp, [], rfl⟩ with ⟨text, a', h1, h2, _⟩ | ⟨text, w, h1, h2⟩
  · rw [h1, h2]; simp [Outcome.result]
  · rw [h1, h2]

/-- C83 for data without lists: then every template that does not use `@`, and `.` in sections only, is rendered with lexical scopes, however deeply its sections are nested. -/
theorem C83_listless_lexical (real : Bytes → Bytes) (tpl : Tpl) (root : Elem) (out : Bytes) (hp : tpl.plain false = true) (hl : listless root = true) (hwf : tpl.wf [] []) (h0 : (0 : UInt8) ∉ tpl.print)
    (hw : WF root) (hi : InOrder root) :
    (mustacheRender real out tpl.print root).map shown =
      some (endingOf (tpl.eval (writerEnv real) false false none [some root]).result.1, out ++ (tpl.eval (writerEnv real) false false none [some root]).result.2) :=
  C83_nested_lexical_partial real tpl root out (plain_calm tpl false [some root] hp (by
    intro s hs e he
    rw [List.mem_singleton] at hs
    rw [hs] at he; cases he
    exact hl)) hwf h0 hw hi

/-- C83 is false in general: after a section over a list the list stays in scope, the enclosing section's closing tag removes it instead of its own element, and that element's members are still seen
after the end of the section, here `n` of `a`. -/
theorem C83_not_lexical : ∃ (tpl : Tpl) (root : Elem), tpl.print = B "{{#a}}{{#b}}{{.}}{{/b}}{{/a}}{{n}}" ∧ WF root ∧
    (mustacheRender id [] tpl.print root).map shown = some (.ok, B "15") ∧ (tpl.eval (writerEnv id) false false none [some root]).result = (none, B "1") :=
  ⟨.section false .inline ⟨[], B "a", []⟩ (.section false .inline ⟨[], B "b", []⟩ (.var .escaped ⟨[], B ".", []⟩ .nil) .inline ⟨[], B "b", []⟩ .nil) .inline ⟨[], B "a", []⟩ <|
      .var .escaped ⟨[], B "n", []⟩ .nil,
    obj [.cont (some (B "a")) .object [num (some (B "n")) "5", .cont (some (B "b")) .array [num none "1"]]],
    by decide +kernel, ⟨⟨⟨⟨trivial, ⟨trivial, trivial⟩, trivial⟩, by decide +kernel, by decide +kernel⟩, trivial⟩, by decide +kernel, by decide +kernel⟩, by decide +kernel, by decide +kernel⟩

/-- The same between the rows of a table: the second row, which has no `x`, shows the `x` of the first. -/
theorem C83_row_leak : ∃ root, WF root ∧ go "{{#rows}}{{x}}{{#cols}}{{.}}{{/cols}};{{/rows}}" root = some (.ok, B "17;189;") :=
  ⟨obj [.cont (some (B "rows")) .array [.cont none .object [num (some (B "x")) "1", .cont (some (B "cols")) .array [num none "7"]],
      .cont none .object [.cont (some (B "cols")) .array [num none "8", num none "9"]]]],
    ⟨⟨⟨⟨⟨trivial, ⟨trivial, trivial⟩, trivial⟩, by decide +kernel, by decide +kernel⟩, ⟨⟨⟨trivial, trivial, trivial⟩, trivial⟩, by decide +kernel, by decide +kernel⟩, trivial⟩, trivial⟩,
      by decide +kernel, by decide +kernel⟩, by decide +kernel⟩

/-- An inverted section over an empty list is shown even inside a section that is not. -/
theorem C83_hidden_shown : ∃ root, WF root ∧ go "{{#missing}}{{^e}}shown{{/e}}{{/missing}}" root = some (.ok, B "shown") :=
  ⟨obj [.cont (some (B "e")) .array []], ⟨⟨trivial, trivial⟩, by decide +kernel, by decide +kernel⟩, by decide +kernel⟩

/-- Meeting the hypothesis of `C83_flat_lexical_partial`. -/
example : let tpl : Tpl := .var .escaped ⟨[], B "n", []⟩ <| .section false .inline ⟨[], B "l", []⟩ (.text (B "<") <| .var .amp ⟨[], B ".", []⟩ <| .var .escaped ⟨[], B "n", []⟩ .nil) .inline ⟨[], B "l", []⟩ <|
      .var .escaped ⟨[], B "n", []⟩ .nil
    tpl.flat = true ∧ (0 : UInt8) ∉ tpl.print ∧ (tpl.eval (writerEnv id) false false none [some (obj [.cont (some (B "l")) .array [num none "1", num none "2"], str (some (B "n")) "x"])]).result =
      (none, B "x<1x<2xx") := by decide +kernel

/-- Meeting the hypothesis of `C83_nested_lexical_partial`: a section on an object in a section over a list, and three sections in each other, the names of the inner ones hiding those of the outer. -/
example : let tpl : Tpl := .section false .inline ⟨[], B "l", []⟩ (.section false .inline ⟨[], B "o", []⟩ (.var .escaped ⟨[], B "n", []⟩ .nil) .inline ⟨[], B "o", []⟩ <|
      .var .escaped ⟨[], B "n", []⟩ .nil) .inline ⟨[], B "l", []⟩ <| .var .escaped ⟨[], B "n", []⟩ .nil
    let root := obj [.cont (some (B "l")) .array [.cont none .object [num (some (B "n")) "1", .cont (some (B "o")) .object [num (some (B "n")) "2"]], .cont none .object [num (some (B "n")) "3"]], str (some (B "n")) "x"]
    tpl.calm false [some root] = true ∧ (0 : UInt8) ∉ tpl.print ∧ (tpl.eval (writerEnv id) false false none [some root]).result = (none, B "213x") := by decide +kernel

/-- Meeting the hypotheses of `C83_listless_lexical`. -/
example : let tpl : Tpl := .section false .inline ⟨[], B "a", []⟩ (.section false .inline ⟨[], B "b", []⟩ (.var .escaped ⟨[], B "n", []⟩ <| .section true .inline ⟨[], B "c", []⟩ (.var .escaped ⟨[], B "m", []⟩ .nil)
      .inline ⟨[], B "c", []⟩ .nil) .inline ⟨[], B "b", []⟩ <| .var .escaped ⟨[], B "n", []⟩ .nil) .inline ⟨[], B "a", []⟩ <| .var .escaped ⟨[], B "n", []⟩ .nil
    let root := obj [.cont (some (B "a")) .object [.cont (some (B "b")) .object [str (some (B "n")) "z"], str (some (B "m")) "m", str (some (B "n")) "y"], str (some (B "n")) "x"]
    tpl.plain false = true ∧ listless root = true ∧ (0 : UInt8) ∉ tpl.print ∧ (tpl.eval (writerEnv id) false false none [some root]).result = (none, B "zmyx") := by decide +kernel

/-! ## C84 -/

/-- C84. An escaped text has no `<`, `>` or `"`. -/
theorem C84_no_markup (s : Bytes) : ∀ c ∈ html s, c ≠ 60 ∧ c ≠ 62 ∧ c ≠ 34 := by
  rw [html_eq, escape]
  intro c hc
  obtain ⟨a, _, h⟩ := List.mem_flatMap.mp hc
  exact Str.byte_all (P := fun a => (entity a).all fun c => c != 60 && c != 62 && c != 34) (by decide +kernel) a |> fun h' => by
    have := List.all_eq_true.mp h' c h
    simp at this
    exact ⟨this.1.1, this.1.2, this.2⟩

/-- The bodies of the four entities. -/
def entityTails : List Bytes := [B "amp;", B "quot;", B "lt;", B "gt;"]

/-- C84. Every `&` of an escaped text begins an entity. -/
theorem C84_amp (s a b : Bytes) (h : html s = a ++ 38 :: b) : ∃ e ∈ entityTails, e <+: b := by
  rw [html_eq, escape] at h
  induction s generalizing a with
  | nil => simp at h
  | cons c s ih =>
    rw [List.flatMap_cons] at h
    by_cases hlen : (entity c).length ≤ a.length
    · obtain ⟨a', e⟩ : ∃ a', a = entity c ++ a' := by
        have := List.prefix_of_prefix_length_le (l₁ := entity c) (l₂ := a) (l₃ := entity c ++ List.flatMap entity s) (List.prefix_append _ _) (by rw [h]; exact List.prefix_append _ _) hlen
        obtain ⟨t, ht⟩ := this
        exact ⟨t, ht.symm⟩
      subst e
      rw [List.append_assoc, List.append_cancel_left_eq] at h
      exact ih a' h
    · have hpre : a ++ [38] <+: entity c := by
        refine List.prefix_of_prefix_length_le (l₃ := entity c ++ List.flatMap entity s) (by rw [h]; exact ⟨b, by simp⟩) (List.prefix_append _ _) (by simp; omega)
      have key : ∀ c : UInt8, ∀ n < (entity c).length, (entity c)[n]? = some 38 → n = 0 ∧ ∃ e ∈ entityTails, entity c = 38 :: e := by
        intro c
        have := Str.byte_all (P := fun c => decide (∀ n < (entity c).length, (entity c)[n]? = some 38 → n = 0 ∧ ∃ e ∈ entityTails, entity c = 38 :: e)) (by decide +kernel) c
        simpa using this
      have hn : (entity c)[a.length]? = some 38 := by
        obtain ⟨t, ht⟩ := hpre
        rw [← ht]; simp
      obtain ⟨k1, e, k2, k3⟩ := key c a.length (by omega) hn
      have ha : a = [] := List.length_eq_zero_iff.mp k1
      subst ha
      rw [k3] at h
      simp at h
      exact ⟨e, k2, ⟨_, h⟩⟩

/-- C84. Escaping loses nothing. -/
theorem C84_injective (s s' : Bytes) (h : html s = html s') : s = s' := by
  rw [html_eq, html_eq, escape, escape] at h
  have nonempty : ∀ c, entity c ≠ [] := fun c => by
    have := Str.byte_all (P := fun c => decide (entity c ≠ [])) (by decide +kernel) c
    simpa using this
  have key : ∀ c d : UInt8, c ≠ d → ¬ entity c <+: entity d := by
    intro c d
    have h1 : ∀ c ∈ [38, 34, 60, 62], ∀ d ∈ [38, 34, 60, 62], c ≠ d → ¬ entity c <+: entity d := by decide +kernel
    have h2 : ∀ c : UInt8, c ∉ [38, 34, 60, 62] → entity c = [c] := by
      intro c
      have := Str.byte_all (P := fun c => decide (c ∉ [38, 34, 60, 62] → entity c = [c])) (by decide +kernel) c
      exact of_decide_eq_true this
    have h3 : ∀ d ∈ [38, 34, 60, 62], ∃ t, entity d = 38 :: t := by
      intro d hd
      simp at hd
      rcases hd with rfl | rfl | rfl | rfl
      · exact ⟨B "amp;", by decide +kernel⟩
      · exact ⟨B "quot;", by decide +kernel⟩
      · exact ⟨B "lt;", by decide +kernel⟩
      · exact ⟨B "gt;", by decide +kernel⟩
    intro hne hp
    by_cases hc : c ∈ [38, 34, 60, 62]
    · by_cases hd : d ∈ [38, 34, 60, 62]
      · exact h1 c hc d hd hne hp
      · rw [h2 d hd] at hp
        obtain ⟨t, ht⟩ := h3 c hc
        rw [ht, List.cons_prefix_cons] at hp
        exact hd (by rw [← hp.1]; simp)
    · rw [h2 c hc] at hp
      by_cases hd : d ∈ [38, 34, 60, 62]
      · obtain ⟨t, ht⟩ := h3 d hd
        rw [ht, List.cons_prefix_cons] at hp
        exact hc (by rw [hp.1]; simp)
      · rw [h2 d hd, List.cons_prefix_cons] at hp
        exact hne hp.1
  induction s generalizing s' with
  | nil => cases s' with
    | nil => rfl
    | cons d s' => rw [List.flatMap_cons] at h; simp at h; exact absurd h.1 (nonempty d)
  | cons c s ih => cases s' with
    | nil => rw [List.flatMap_cons] at h; simp at h; exact absurd h.1 (nonempty c)
    | cons d s' =>
      rw [List.flatMap_cons, List.flatMap_cons] at h
      by_cases hcd : c = d
      · subst hcd
        rw [List.append_cancel_left_eq] at h
        rw [ih s' h]
      · exfalso
        rcases Nat.le_total (entity c).length (entity d).length with hl | hl
        · exact key c d hcd (List.prefix_of_prefix_length_le (l₃ := entity d ++ List.flatMap entity s') (by rw [← h]; exact List.prefix_append _ _) (List.prefix_append _ _) hl)
        · exact key d c (Ne.symm hcd) (List.prefix_of_prefix_length_le (l₃ := entity c ++ List.flatMap entity s) (by rw [h]; exact List.prefix_append _ _) (List.prefix_append _ _) hl)

/-- C84. `{{name}}` renders a string escaped, `{{{name}}}` and `{{&name}}` as it is, for every string and every name without dots. -/
theorem C84_variable (real : Bytes → Bytes) (out name v : Bytes) (k : Kind) (rest : List Elem) (hk : k ≠ .pretty ∧ k ≠ .compact)
    (hn : name ≠ [] ∧ name ≠ [46] ∧ name ≠ [64] ∧ 0 ∉ name ∧ 46 ∉ name ∧ 125 ∉ name ∧ (∀ c ∈ name, blank c = false) ∧ ∀ c, name.head? = some c → c ∉ sigils)
    (hw : WF (.cont none .object (.prim (some name) .string v :: rest))) :
    (mustacheRender real out (k.print name) (.cont none .object (.prim (some name) .string v :: rest))).map shown =
      some (.ok, out ++ if k = .escaped then escape v else v) := by
  obtain ⟨n1, n2, n3, n4, n5, n6, n7, n8⟩ := hn
  have hname : Name.print ⟨[], name, []⟩ = name := by simp [Name.print]
  have h := (C82_render_any { real, pretty := fun _ => [], compact := fun _ => [] } (.var k ⟨[], name, []⟩ .nil) (.cont none .object (.prim (some name) .string v :: rest)) out
    ⟨⟨rfl, rfl, n6, fun c hc => n7 c (List.mem_of_mem_head? hc), fun c hc => n7 c (List.mem_of_getLast? hc)⟩, fun _ c hc => n8 c (by rwa [hname] at hc), trivial⟩
    (by simp only [Tpl.print, hname, List.append_nil]; cases k <;> simp [Kind.print, tag, n4]) hw (by simp [Tpl.serial, hk])).1
  simp only [Tpl.print, hname, List.append_nil] at h
  rw [h]
  have ht : TokenSpec.tokens (· == 46) name = [name] := by
    have hp : ∀ l : Bytes, 46 ∉ l → TokenSpec.pieces (· == 46) l = [l] := by
      intro l
      induction l with
      | nil => intro _; rfl
      | cons c l ih =>
        intro h
        simp only [List.mem_cons, not_or] at h
        rw [TokenSpec.pieces, ih h.2, if_neg (by simpa using Ne.symm h.1)]
    rw [TokenSpec.tokens, hp name n5]
    simp [n1]
  have hd : denote [some (.cont none .object (.prim (some name) .string v :: rest))] name = some (.prim (some name) .string v) := by
    simp [denote, ht, base, resolve, member, Elem.name]
  simp only [Tpl.eval, varOutcome, varText, if_neg n1, if_neg n2, if_neg n3, hd, elemText, primText]
  simp [Outcome.andThen, Outcome.result, endingOf]

/-- C84. A text without `{{` is rendered as it is. -/
theorem C84_plain (real : Bytes → Bytes) (out t : Bytes) (root : Elem) (hw : WF root) (h0 : (0 : UInt8) ∉ t) (ht : ¬ [123, 123] <:+: t) :
    (mustacheRender real out t root).map shown = some (.ok, out ++ t) := by
  unfold mustacheRender
  rw [render, show nextTag t 0 [123, 123] [125, 125] = some { type := .none } by unfold nextTag; rw [List.drop_zero, strstr_pair_none 123 t ht]]
  simp [bounds, isTagTypeRenderable, contentBytes, shown]

theorem eval_uncommented (env : Env) (leak : Bool) (tpl : Tpl) : ∀ skip key ss, tpl.uncommented.eval env leak skip key ss = tpl.eval env leak skip key ss := by
  have hu : ∀ tpl : Tpl, tpl.uncommented.usesKey = tpl.usesKey := by
    intro tpl
    induction tpl with
    | nil => rfl
    | text s rest ih => exact ih
    | var k n rest ih => simp only [Tpl.uncommented, Tpl.usesKey, ih]
    | comment lay s rest ih => exact ih
    | «section» inv lay n body clay cl rest ihb _ => simp only [Tpl.uncommented, Tpl.usesKey, ihb]
  induction tpl with
  | nil => intro skip key ss; rfl
  | text s rest ih => intro skip key ss; simp only [Tpl.uncommented, Tpl.eval, ih]
  | var k n rest ih => intro skip key ss; simp only [Tpl.uncommented, Tpl.eval, ih]
  | comment lay s rest ih => intro skip key ss; simp only [Tpl.uncommented, Tpl.eval, ih]
  | «section» inv lay n body clay cl rest ihb ihr =>
    intro skip key ss
    have hm : ∀ e, mode skip inv body.uncommented e = mode skip inv body e := by
      intro e; unfold mode; rw [hu]
    simp only [Tpl.uncommented, Tpl.eval, ihb, ihr, hm]

/-- C84. Comments do not show: with them taken out the output is the same. -/
theorem C84_comments (real : Bytes → Bytes) (tpl : Tpl) (root : Elem) (out : Bytes) (hwf : tpl.wf [] []) (hwf' : tpl.uncommented.wf [] []) (h0 : (0 : UInt8) ∉ tpl.print)
    (h0' : (0 : UInt8) ∉ tpl.uncommented.print) (hw : WF root) (hi : InOrder root) :
    (mustacheRender real out tpl.print root).map shown = (mustacheRender real out tpl.uncommented.print root).map shown := by
  rw [(C82_render real tpl root out hwf h0 hw hi).1, (C82_render real _ root out hwf' h0' hw hi).1, eval_uncommented]

end Mustache
