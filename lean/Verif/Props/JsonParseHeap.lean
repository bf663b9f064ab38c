import Verif.Spec.JsonParseHeap
import Verif.Lemmas.JsonParseHeap
import Verif.Props.JsonHeap
/-! # C134: the JSON parser's memory -/
namespace JsonHeap
open Json JsonHeapSpec

theorem Is.of_tidy {h : Heap} (ht : Tidy h) : ∃ R, Is h R := by
  refine ⟨(Multiset.range h.next).filterMap (fun a => (h.cell a).map fun c => (a, c)), ?_, ?_, ?_⟩
  · rw [Multiset.map_filterMap]
    refine Multiset.Nodup.filterMap _ ?_ (Multiset.nodup_range _)
    intro a b c ha hb
    simp only [Option.mem_def, Option.map_eq_some_iff] at ha hb
    obtain ⟨x, ⟨y, _, rfl⟩, rfl⟩ := ha
    obtain ⟨x, ⟨y, _, rfl⟩, h⟩ := hb
    exact h.symm
  · intro a c
    simp only [Multiset.mem_filterMap, Multiset.mem_range, Option.map_eq_some_iff, Prod.mk.injEq]
    constructor
    · intro hc
      refine ⟨a, ?_, c, hc, rfl, rfl⟩
      by_contra hl
      rw [ht a (by omega)] at hc
      cases hc
    · rintro ⟨b, _, d, hd, rfl, rfl⟩
      exact hd
  · intro p hp
    simp only [Multiset.mem_filterMap, Multiset.mem_range, Option.map_eq_some_iff] at hp
    obtain ⟨a, ha, c, _, rfl⟩ := hp
    exact ha

theorem Is.same {h h' : Heap} {R : Blocks} (i : Is h R) (i' : Is h' R) : SameBlocks h h' := by
  intro a
  cases hc : h.cell a with
  | some c => exact (i'.mem a c).mpr ((i.mem a c).mp hc)
  | none =>
    cases hc' : h'.cell a with
    | none => rfl
    | some c => rw [(i.mem a c).mpr ((i'.mem a c).mp hc')] at hc; cases hc

theorem Is.newElement {h h' : Heap} {R : Blocks} {t : HT} (i : Is h R) (hv : t.Valid) (i' : Is h' (t.blocks + R)) : NewElement h h' t.root t.elem := by
  refine ⟨?_, ?_, ?_, ?_⟩
  · cases hc : h.cell t.root with
    | none => rfl
    | some c =>
      have hm := (i.mem _ _).mp hc
      rw [HT.blocks_eq, Multiset.cons_add] at i'
      exact absurd (Multiset.mem_add.mpr (.inr hm)) (i'.notMem c)
  · have hd := i'.depth_le
    exact viewN_ok _ t (by omega) (i'.has sub_left)
  · intro b c hc
    exact (i'.mem b c).mpr (sub_right ((i.mem b c).mp hc))
  · obtain ⟨h'', e, i'', _⟩ := destroy_ok hv i'
    exact ⟨h'', e, i.same i''⟩

/-- The parser allocates exactly the element it returns: on success the result is a new element with the value parsed, all else is as before, and destroying it frees everything the parser allocated. -/
theorem C134_parsed_element_is_all_there_is (h : Heap) (ht : Tidy h) (s : Bytes) (e : Elem) (q : Nat) (hp : parse s = some (.ok (e, q))) :
    ∃ h' a, hParse h s = some (h', .ok (a, q)) ∧ NewElement h h' a e := by
  obtain ⟨R, i⟩ := Is.of_tidy ht
  have := hParseLoop_ok i s s 0 (fun _ h => h)
  rw [show parseLoop s s 0 = _ from hp] at this
  obtain ⟨h', t, e1, hv, rfl, i'⟩ := this
  exact ⟨h', t.root, e1, i.newElement hv i'⟩

/-- `{"a": [1, true], "a": {"b": "x"}, c: null}`: the first "a" is replaced. -/
def sampleText : Bytes := [123, 34, 97, 34, 58, 32, 91, 49, 44, 32, 116, 114, 117, 101, 93, 44, 32, 34, 97, 34, 58, 32, 123, 34, 98, 34, 58, 32, 34, 120, 34, 125, 44, 32, 99, 58, 32, 110, 117, 108, 108, 125]

def isOk {α : Type} : P α → Bool
  | some (.ok _) => true
  | _ => false

example : isOk (parse sampleText) = true := by decide +kernel
example : Tidy Heap.empty := fun _ _ => rfl

/-- A text that is refused leaves the memory as it was, unless the error is a string that does not end. The error is the parser's. -/
theorem C134_failed_parse_leaves_nothing_partial (h : Heap) (ht : Tidy h) (s : Bytes) (err : Err) (hp : parse s = some (.error err)) (he : err ≠ .strEnd ∨ 91 ∉ s) :
    ∃ h' null, hParse h s = some (h', .error (err, null)) ∧ SameBlocks h h' := by
  obtain ⟨R, i⟩ := Is.of_tidy ht
  have := hParseLoop_ok i s s 0 (fun _ h => h)
  rw [show parseLoop s s 0 = _ from hp] at this
  obtain ⟨h', b, L, e1, i', hL⟩ := this
  have hL0 : L = 0 := hL.resolve_right fun ⟨h1, h2, _⟩ => he.elim (fun he => he h1) (fun he => he h2)
  subst hL0
  exact ⟨h', b, e1, i.same (i'.congr (by simp))⟩

/-- `{"a": [1, {"b": [true]}], "c": }` is refused for its last member. -/
def refusedText : Bytes := [123, 34, 97, 34, 58, 32, 91, 49, 44, 32, 123, 34, 98, 34, 58, 32, 91, 116, 114, 117, 101, 93, 125, 93, 44, 32, 34, 99, 34, 58, 32, 125]

def errOf {α : Type} : P α → Option Err
  | some (.error e) => some e
  | _ => none

example : errOf (parse refusedText) = some .openLval := by decide +kernel

/-- In every refused text, a string that does not end included, nothing is lost but at most one array, whole: it could still be destroyed if anyone knew it. -/
theorem C134_at_most_one_array_is_lost (h : Heap) (ht : Tidy h) (s : Bytes) (err : Err) (hp : parse s = some (.error err)) :
    ∃ h' null, hParse h s = some (h', .error (err, null)) ∧ (SameBlocks h h' ∨ err = .strEnd ∧ ∃ a ks, NewElement h h' a (.cont none .array ks)) := by
  obtain ⟨R, i⟩ := Is.of_tidy ht
  have := hParseLoop_ok i s s 0 (fun _ h => h)
  rw [show parseLoop s s 0 = _ from hp] at this
  obtain ⟨h', b, L, e1, i', hL⟩ := this
  refine ⟨h', b, e1, ?_⟩
  rcases hL with rfl | ⟨h1, _, a, sq, ks, hv, rfl⟩
  · exact .inl (i.same (i'.congr (by simp)))
  · refine .inr ⟨h1, a, elems ks, ?_⟩
    have := i.newElement (t := .cont a none .array sq ks) hv i'
    simpa [HT.elem, HT.root] using this

example : errOf (parse [91, 34, 97]) = some .strEnd := by decide +kernel

/-! ## Findings -/

/-- The number of blocks among the first `n` addresses. -/
def used (h : Heap) : Nat := ((List.range h.next).filter fun a => (h.cell a).isSome).length

/-- What a failing parse of a text leaves in an empty heap, and whether it stored NULL in `*json_out`. -/
def leftOver (x : HP) : Option (Nat × Err × Bool) :=
  match x with
  | some (h, .error (e, null)) => some (used h, e, null)
  | _ => none

/-- `["a` : the array is lost (two blocks: the element and its Seq), and so is `[[1], "a` with all its contents; outside of an array nothing is lost (`{"k": "a`). -/
theorem C134_unended_string_loses_the_array_negated :
    leftOver (hParse Heap.empty [91, 34, 97]) = some (2, .strEnd, false) ∧
    leftOver (hParse Heap.empty [91, 91, 49, 93, 44, 32, 34, 97]) = some (6, .strEnd, false) ∧
    leftOver (hParse Heap.empty [123, 34, 107, 34, 58, 34, 97]) = some (0, .strEnd, false) := by
  decide +kernel

/-- On errors `*json_out` is sometimes set to NULL (`[1`) and sometimes left alone (`[1,,2]`, `{"a",`, the empty text), so a caller who did not initialise it has a wild pointer. -/
theorem C134_output_left_alone_negated :
    leftOver (hParse Heap.empty [91, 49]) = some (0, .arrayEnd, true) ∧
    leftOver (hParse Heap.empty [91, 49, 44, 44, 50, 93]) = some (0, .arrayComma, false) ∧
    leftOver (hParse Heap.empty [123, 34, 97, 34, 44]) = some (0, .objectComma, false) ∧
    leftOver (hParse Heap.empty []) = some (0, .noData, false) := by
  decide +kernel

/-- Reading a file: what has been read is freed again, and the outcome is that of the parser, whatever the file contains. -/
theorem C134_file_partial (h : Heap) (ht : Tidy h) (s : Bytes) (e : Elem) (q : Nat) (hp : parse s = some (.ok (e, q))) :
    ∃ h' a, hParseFile h (some (s, false)) = some (h', .ok (a, q)) ∧ NewElement h h' a e := by
  obtain ⟨R, i⟩ := Is.of_tidy ht
  have i1 := i.alloc (.str s)
  have := hParseLoop_ok i1 s s 0 (fun _ h => h)
  rw [show parseLoop s s 0 = _ from hp] at this
  obtain ⟨h', t, e1, hv, rfl, i'⟩ := this
  obtain ⟨h'', e2, i2, _⟩ := (i'.congr (by rw [Multiset.add_cons])).free
  exact ⟨h'', t.root, by simp only [hParseFile, hParse, e1, e2, Bool.false_eq_true, if_false, Option.map_some]; rfl, i.newElement hv i2⟩

/-- ... and a refused file leaves nothing, with the same exception. -/
theorem C134_refused_file_partial (h : Heap) (ht : Tidy h) (s : Bytes) (err : Err) (hp : parse s = some (.error err)) (he : err ≠ .strEnd ∨ 91 ∉ s) :
    ∃ h', hParseFile h (some (s, false)) = some (h', .error (err, true)) ∧ SameBlocks h h' := by
  obtain ⟨R, i⟩ := Is.of_tidy ht
  have i1 := i.alloc (.str s)
  have := hParseLoop_ok i1 s s 0 (fun _ h => h)
  rw [show parseLoop s s 0 = _ from hp] at this
  obtain ⟨h', b, L, e1, i', hL⟩ := this
  have hL0 : L = 0 := hL.resolve_right fun ⟨h1, h2, _⟩ => he.elim (fun he => he h1) (fun he => he h2)
  subst hL0
  obtain ⟨h'', e2, i2, _⟩ := Is.free (a := (alloc h (.str s)).1) (c := .str s) (R := R) (i'.congr (by simp))
  exact ⟨h'', by simp only [hParseFile, hParse, e1, e2, Bool.false_eq_true, if_false, Option.map_some]; rfl, i.same i2⟩

/-- A file cut at the size limit: the text read is lost, every time. -/
theorem C134_cut_file_negated (h : Heap) (s : Bytes) : ∃ h' a, hParseFile h (some (s, true)) = some (h', .error (.truncated, false)) ∧ h'.cell a = some (.str s) ∧ (Tidy h → h.cell a = none) :=
  ⟨(alloc h (.str s)).2, h.next, rfl, by simp [alloc], fun ht => ht _ (Nat.le_refl _)⟩

end JsonHeap
