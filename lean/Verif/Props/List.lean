import Verif.Lemmas.ListOps3
import Verif.Lemmas.ListPtr
/-! # C17 (list copies are isolated), C54 (reference counting), C74 (lists do not leak), C75 (list iterators) -/
open CList ListSpec

/-- C17. For every history of ListNew/ListCopy/ListAppend/ListPrepend/ListRemove/ListDestroy on any number of lists and copies,
whose client uses only live handles, the code never touches freed or foreign memory, returns what independent values would
return, and every live list reads back (iterator API and ListCount) as its own independent value: an update of one copy is
never seen in another. -/
theorem C17_lists_are_isolated_values {V : Type} (c : Cfg V) (hcopy : c.copy = true) (eqv : V → V → Bool) (hcmp : c.compare = some eqv)
    (ops : List (Op V)) (sp : ListSpec.S V) (os : List Out) (h : ListSpec.run eqv ListSpec.init ops = some (sp, os)) :
    ∃ s, execs c St.init ops = some (s, os) ∧
      ∀ l xs, sp.val l = some xs → contents s l = some xs ∧ ListCount s l = some xs.length := by
  obtain ⟨s, g, h1, h2, _⟩ := inv_execs c hcopy eqv hcmp ops inv_init h
  exact ⟨s, h1, fun l xs hx => contents_ok h2 hx⟩

/-- Non-vacuity: a history with sharing, detaching in both directions, removal and destruction. -/
example : ∃ sp os, ListSpec.run (fun a b => decide (a = b)) (ListSpec.init : ListSpec.S Nat)
    [.new, .append 0 5, .append 0 6, .copy 0, .copy 1, .prepend 1 7, .remove 0 5, .destroy 2, .append 1 8, .remove 0 9] = some (sp, os) ∧
    os = [.handle 0, .result 0, .result 0, .handle 1, .handle 2, .result 0, .result 0, .result 0, .result 0, .result (-1)] ∧
    sp.val 0 = some [6] ∧ sp.val 1 = some [7, 5, 6, 8] ∧ sp.val 2 = none := by
  refine ⟨_, _, rfl, ?_, ?_, ?_, ?_⟩ <;> decide

/-- Without a copy function ListCopy refuses and changes nothing. -/
theorem C17_copy_refused_without_copy_function {V : Type} (c : Cfg V) (hcopy : c.copy = false) (s : St V) (l : Nat) (L : Lst)
    (hl : s.lists l = some L) : ListCopy c s l = some (s, none) := by
  simp [ListCopy, hl, hcopy]

/-- C17, C74 and C75 for lists made without a copy function. For every history: copying is refused with -1 and changes nothing, everything else returns what
independent values return, every live list reads back as its value, and when every list is destroyed no node, user record, counter or (with a destroy
function) payload is left. -/
theorem C17_lists_without_copy_function {V : Type} (c : Cfg V) (hcopy : c.copy = false) (eqv : V → V → Bool) (hcmp : c.compare = some eqv)
    (ops : List (Op V)) (sp : ListSpec.S V) (os : List Out) (h : ListSpec.runAlone eqv ListSpec.init ops = some (sp, os)) :
    ∃ s, execs c St.init ops = some (s, os) ∧
      (∀ l xs, sp.val l = some xs → contents s l = some xs ∧ ListCount s l = some xs.length) ∧
      ((∀ l, sp.val l = none) → (∀ a, s.nodes.cells a = none) ∧ (∀ a, s.users.cells a = none) ∧ (∀ r, s.rcs r = none) ∧ (∀ l, s.lists l = none) ∧
        (c.destroy = true → ∀ a, s.pays.cells a = none)) := by
  obtain ⟨s, g, h1, h2, h3⟩ := execs_alone c hcopy eqv hcmp ops inv_init (fun r rc hr => by cases hr) h
  have tg := h3 (tight_init c)
  refine ⟨s, h1, fun l xs hx => contents_ok h2 hx, fun hdead => ?_⟩
  have hl : ∀ l, s.lists l = none := by
    intro l
    cases hh : s.lists l with
    | none => rfl
    | some L => have := (h2.lists l L hh).2.2.2.2; rw [hdead l] at this; cases this
  have hus : ∀ r, (g r).us = [] := by
    intro r
    cases hh : (g r).us with
    | nil => rfl
    | cons p ps =>
      obtain ⟨L, h4, _⟩ := h2.owner r p (by rw [hh]; simp)
      rw [hl] at h4; cases h4
  have hes : ∀ r, (g r).es = [] := fun r => h2.empty r (hus r)
  refine ⟨fun a => ?_, fun a => ?_, fun r => ?_, hl, fun hdes a => ?_⟩
  · refine Classical.byContradiction fun hh => ?_
    obtain ⟨r, e, he, _⟩ := tg.node a hh; rw [hes] at he; simp at he
  · refine Classical.byContradiction fun hh => ?_
    obtain ⟨r, e, he, _⟩ := tg.user a hh; rw [hus] at he; simp at he
  · refine Classical.byContradiction fun hh => ?_
    exact tg.rc r hh (hus r)
  · refine Classical.byContradiction fun hh => ?_
    rcases tg.pay hdes a hh with ⟨r, e, he, _⟩ | hk
    · rw [hes] at he; simp at he
    · cases hk

/-- Non-vacuity: two lists, a refused copy, removals and destruction of both. -/
example : ∃ sp os, ListSpec.runAlone (fun a b => decide (a = b)) (ListSpec.init : ListSpec.S Nat)
    [.new, .append 0 5, .prepend 0 6, .copy 0, .new, .append 1 7, .remove 0 5, .remove 1 5] = some (sp, os) ∧
    os = [.handle 0, .result 0, .result 0, .result (-1), .handle 1, .result 0, .result 0, .result (-1)] ∧ sp.val 0 = some [6] ∧ sp.val 1 = some [7] := by
  refine ⟨_, _, rfl, ?_, ?_, ?_⟩ <;> decide

/-- C17, C74 and C75 for lists made without compare and copy functions, whose elements are matched by address. For every history: removing an object takes
out exactly that object, whatever other objects with equal content the list holds, and frees it; removing an object of another list is refused and changes
nothing; every live list reads back as its sequence of objects; when every list is destroyed no node, user record, counter or (with a destroy function)
object is left. -/
theorem C17_lists_compared_by_address {V : Type} (c : Cfg (Nat × V)) (hcopy : c.copy = false) (hcmp : c.compare = none)
    (ops : List (ListPtrSpec.Op V)) (sp : ListPtrSpec.S V) (os : List ListPtrSpec.Out) (h : ListPtrSpec.Run ListPtrSpec.init ops sp os) :
    ∃ s, execsPtr c St.init ops = some (s, os) ∧
      (∀ l xs, sp.val l = some xs → contents s l = some xs ∧ ListCount s l = some xs.length) ∧
      ((∀ l, sp.val l = none) → (∀ a, s.nodes.cells a = none) ∧ (∀ a, s.users.cells a = none) ∧ (∀ r, s.rcs r = none) ∧ (∀ l, s.lists l = none) ∧
        (c.destroy = true → ∀ a, s.pays.cells a = none)) := by
  have i0 : PtrInv c (St.init : St (Nat × V)) ListPtrSpec.init (fun _ => ⟨[], []⟩) :=
    { inv := inv_init, alone := fun r rc hr => (by cases hr), tag := fun a v hv => (by cases hv), objs := rfl, tight := tight_init c }
  obtain ⟨s, g, h1, h2, _, _, _, tg⟩ := ptr_run c hcopy hcmp h i0
  refine ⟨s, h1, fun l xs hx => contents_ok h2 hx, fun hdead => ?_⟩
  have hl : ∀ l, s.lists l = none := by
    intro l
    cases hh : s.lists l with
    | none => rfl
    | some L => have := (h2.lists l L hh).2.2.2.2; simp only [hdead l] at this; cases this
  have hus : ∀ r, (g r).us = [] := by
    intro r
    cases hh : (g r).us with
    | nil => rfl
    | cons p ps =>
      obtain ⟨L, h4, _⟩ := h2.owner r p (by rw [hh]; simp)
      rw [hl] at h4; cases h4
  have hes : ∀ r, (g r).es = [] := fun r => h2.empty r (hus r)
  refine ⟨fun a => ?_, fun a => ?_, fun r => ?_, hl, fun hdes a => ?_⟩
  · refine Classical.byContradiction fun hh => ?_
    obtain ⟨r, e, he, _⟩ := tg.node a hh; rw [hes] at he; simp at he
  · refine Classical.byContradiction fun hh => ?_
    obtain ⟨r, e, he, _⟩ := tg.user a hh; rw [hus] at he; simp at he
  · refine Classical.byContradiction fun hh => ?_
    exact tg.rc r hh (hus r)
  · refine Classical.byContradiction fun hh => ?_
    rcases tg.pay hdes a hh with ⟨r, e, he, _⟩ | hk
    · rw [hes] at he; simp at he
    · cases hk

/-- Non-vacuity: equal contents in three objects, the middle one is removed by its pointer; an object of another list is refused. -/
example : ∃ sp, ListPtrSpec.Run (ListPtrSpec.init : ListPtrSpec.S Nat)
    [.new, .append 0 5, .append 0 5, .append 0 5, .new, .append 1 5, .remove 0 1, .remove 0 3] sp
    [.handle 0, .result 0, .result 0, .result 0, .handle 1, .result 0, .result 0, .result (-1)] ∧
    sp.val 0 = some [(0, 5), (2, 5)] ∧ sp.val 1 = some [(3, 5)] := by
  refine ⟨_, .cons .new (.cons (.append 0 [] 5 rfl) (.cons (.append 0 [(0, 5)] 5 rfl) (.cons (.append 0 [(0, 5), (1, 5)] 5 rfl) (.cons .new
    (.cons (.append 1 [] 5 rfl) (.cons (.remove 0 [(0, 5)] [(2, 5)] 1 5 rfl) (.cons (.refused 0 1 [(0, 5), (2, 5)] [(3, 5)] 3 5 rfl rfl (by simp) (by decide))
      (.nil _)))))))), rfl, rfl⟩

/-- What the code gets wrong, 1: ListRemove on a list that is shared and has no compare function.  The element is found by
address in the shared nodes, the list is then deep-copied, and the address is not in the copy: assert failure, or NULL
dereference in a release build. -/
theorem C17_remove_by_pointer_on_shared_list_is_undefined :
    let c : Cfg Nat := { compare := none, copy := true, destroy := true }
    ∃ s, execs c St.init [.new, .append 0 5, .copy 0] = some (s, [.handle 0, .result 0, .handle 1]) ∧
      contents s 0 = some [5] ∧ (ListRemove c s 0 0).isNone = true ∧
      -- the same removal on a list that is not shared succeeds
      ∃ s', execs c St.init [.new, .append 0 5] = some (s', [.handle 0, .result 0]) ∧ ((ListRemove c s' 0 0).map (·.2)) = some 0 := by
  refine ⟨_, rfl, rfl, rfl, _, rfl, rfl⟩

/-- What the code gets wrong, 2: a NULL payload becomes an uninitialised pointer when its list is deep-copied. -/
theorem C17_null_payload_is_uninitialised_after_detach :
    let c : Cfg Nat := { compare := some (fun a b => decide (a = b)), copy := true, destroy := true }
    ∃ s1 s2 s3, ListNew (St.init : St Nat) = some (s1, 0) ∧ ListAppend c s1 0 .null = some s2 ∧ ListCopy c s2 0 = some (s3, some 1) ∧
      (∃ s4, ListAppend c s3 1 .null = some s4 ∧ (ListIteratorData s4 ⟨(s4.lists 1).bind (·.first), 1, 0⟩).isNone = true ∧
        (ListIteratorData s4 ⟨(s4.lists 0).bind (·.first), 0, 0⟩) = some none) := by
  refine ⟨_, _, _, rfl, rfl, rfl, _, rfl, rfl, rfl⟩

/-- What the code gets wrong, 3: ListDetach does not touch the list's `state`, so an iterator opened before a copy was made still
counts as valid after an update detached the list, although it points to the nodes now owned by the copy; once the copy
is destroyed it reads freed memory. -/
theorem C17_iterator_dangles_after_detach :
    let c : Cfg Nat := { compare := some (fun a b => decide (a = b)), copy := true, destroy := true }
    ∃ s it s', execs c St.init [.new, .append 0 5] = some (s, [.handle 0, .result 0]) ∧ ListIteratorGet s 0 = some (some it) ∧
      execs c s [.copy 0, .append 0 6, .destroy 1] = some (s', [.handle 1, .result 0, .result 0]) ∧
      iterUsable s' it = some true ∧ (ListIteratorData s' it).isNone = true := by
  refine ⟨_, _, _, rfl, rfl, rfl, rfl, rfl⟩

/-! ## C54 -/

/-- One call on a reference counter. -/
def rcExec (h : Queue.Heap Nat) (r : RC) : RefCountSpec.Op → Option Detach
  | .attach o => (RefCountAttach h r o).map fun p => Detach.ok p.1 p.2
  | .detach o => RefCountDetach h r o

/-- A history of calls; a ProgrammingError ends it. -/
def rcExecs (h : Queue.Heap Nat) (r : RC) : List RefCountSpec.Op → Option Detach
  | [] => some (.ok h r)
  | op :: ops =>
    match rcExec h r op with
    | none => none
    | some .programmingError => some .programmingError
    | some (.ok h r) => rcExecs h r ops

/-- The owners on record, read off the user list from its head. -/
def rcOwners (h : Queue.Heap Nat) : Nat → Option Nat → Option (List Nat)
  | 0, _ => none
  | _ + 1, none => some []
  | fuel + 1, some a => do
    let n ← h.cells a
    let rest ← rcOwners h fuel n.next
    some (n.data :: rest)

theorem rcOwners_ok {h : Queue.Heap Nat} {f t : Option Nat} {us : List (Nat × Nat)} (ok : DL h.cells f t us) :
    ∀ fuel i, i ≤ us.length → us.length < i + fuel → rcOwners h fuel (us[i]?.map (·.1)) = some ((us.drop i).map (·.2)) := by
  intro fuel
  induction fuel with
  | zero => intro i h1 h2; omega
  | succ fuel ih =>
    intro i hile hi
    by_cases hlt : i < us.length
    · rw [List.getElem?_eq_getElem hlt, List.drop_eq_getElem_cons hlt]
      simp only [Option.map_some, rcOwners, ok.cell i hlt, Option.bind_eq_bind, Option.bind_some, ih (i+1) (by omega) (by omega),
        List.map_cons]
    · rw [List.getElem?_eq_none (by omega), List.drop_eq_nil_of_le (by omega)]
      simp [rcOwners]

theorem rcExecs_ok : ∀ (ops : List RefCountSpec.Op) (h : Queue.Heap Nat) (r : RC) (us : List (Nat × Nat)), RCOk h.cells r us →
    (∀ p ∈ us, p.1 < h.fresh) →
    match RefCountSpec.run (us.map (·.2)) ops with
    | (owners, .ok) => ∃ h' r' us', rcExecs h r ops = some (.ok h' r') ∧ RCOk h'.cells r' us' ∧ (∀ p ∈ us', p.1 < h'.fresh) ∧
        us'.map (·.2) = owners
    | (_, .programmingError) => rcExecs h r ops = some .programmingError := by
  intro ops
  induction ops with
  | nil => intro h r us ok hb; exact ⟨h, r, us, rfl, ok, hb, rfl⟩
  | cons op ops ih =>
    intro h r us ok hb
    cases op with
    | attach o =>
      obtain ⟨h', r', e1, e2, e3, e4⟩ := attach_ok ok hb o
      have := ih h' r' _ e2 (by
        intro p hp
        rcases List.mem_append.mp hp with hp | hp
        · have := hb p hp; omega
        · simp at hp; subst hp; simp; omega)
      simp only [RefCountSpec.run, RefCountSpec.step, rcExecs, rcExec, e1, Option.map_some]
      simpa using this
    | detach o =>
      obtain ⟨d1, d2, d3⟩ := detach_ok ok hb o
      by_cases h1 : us.length ≤ 1
      · have := ih h r us ok hb
        simp only [RefCountSpec.run, RefCountSpec.step, rcExecs, rcExec, d1 h1, List.length_map, if_pos h1]
        exact this
      · by_cases h2 : o ∈ us.map (·.2)
        · obtain ⟨p, hp, hpo⟩ := List.mem_map.mp h2
          obtain ⟨h', r', e1, e2, e3, e4⟩ := d3 (by omega) ⟨p, hp, hpo⟩
          have hmap : (us.eraseP (fun p => decide (p.2 = o))).map (·.2) = (us.map (·.2)).erase o := by
            rw [List.erase_eq_eraseP, List.eraseP_map]
            congr 2
            funext x
            simp only [Function.comp_apply]
            by_cases hx : x.2 = o
            · simp [hx]
            · simp [hx, Ne.symm hx]
          have := ih h' r' _ e2 (by
            intro q hq; rw [e3]; exact hb q (List.mem_of_mem_eraseP hq))
          rw [hmap] at this
          simp only [RefCountSpec.run, RefCountSpec.step, rcExecs, rcExec, e1, List.length_map, if_neg h1, if_pos h2]
          exact this
        · have h3 := d2 (by omega) (fun p hp hpo => h2 (List.mem_map.mpr ⟨p, hp, hpo⟩))
          simp only [RefCountSpec.run, RefCountSpec.step, rcExecs, rcExec, h3, List.length_map, if_neg h1, if_neg h2]

/-- C54. For every history of attaches and detaches: the code is memory safe, stops with ProgrammingError exactly when the
specification does (a detach by somebody who does not own a shared counter), and otherwise the recorded owners are exactly
those attached and not detached, the user count is their number, and IsShared says whether there is more than one. -/
theorem C54_refcount_is_the_list_of_owners (ops : List RefCountSpec.Op) :
    match RefCountSpec.run [] ops with
    | (owners, .ok) => ∃ h r, rcExecs ⟨fun _ => none, 0⟩ RefCountNew ops = some (.ok h r) ∧ r.userCount = owners.length ∧
        rcOwners h (h.fresh + 1) r.users = some owners ∧ (RefCountIsShared r = true ↔ 1 < owners.length)
    | (_, .programmingError) => rcExecs ⟨fun _ => none, 0⟩ RefCountNew ops = some .programmingError := by
  have := rcExecs_ok ops ⟨fun _ => none, 0⟩ RefCountNew [] ⟨DL.nil _, rfl⟩ (by simp)
  simp only [List.map_nil] at this
  cases hr : RefCountSpec.run [] ops with
  | mk owners out =>
    rw [hr] at this
    cases out with
    | ok =>
      simp only at this ⊢
      obtain ⟨h, r, us, e1, e2, e3, e4⟩ := this
      refine ⟨h, r, e1, by rw [e2.count, ← e4, List.length_map], ?_, by simp [RefCountIsShared, e2.count, ← e4]⟩
      have hlen := length_le_of_nodup _ _ e2.dl.nodup e3
      have := rcOwners_ok e2.dl (h.fresh + 1) 0 (by omega) (by omega)
      rw [← List.head?_eq_getElem?, ← e2.dl.first_eq, List.drop_zero, e4] at this
      exact this
    | programmingError => exact this

example : RefCountSpec.run [] [.attach 3, .attach 4, .attach 5, .detach 4, .detach 9] = ([3, 5], .programmingError) ∧
    RefCountSpec.run [] [.attach 3, .attach 4, .detach 3, .detach 4] = ([4], .ok) := by decide

/-! ## C74: nothing is leaked -/

/-- C74. For every history after which no list handle is live (every list and every copy was destroyed), with payloads owned by the
lists: no list node, no user record, no reference counter and no payload object is left allocated. With C17 (no object is ever
freed twice or touched after being freed) every object handed to a list is destroyed exactly once. -/
theorem C74_nothing_left_after_all_lists_destroyed {V : Type} (c : Cfg V) (hcopy : c.copy = true) (hdes : c.destroy = true)
    (eqv : V → V → Bool) (hcmp : c.compare = some eqv)
    (ops : List (Op V)) (sp : ListSpec.S V) (os : List Out) (h : ListSpec.run eqv ListSpec.init ops = some (sp, os))
    (hdead : ∀ l, sp.val l = none) :
    ∃ s, execs c St.init ops = some (s, os) ∧ (∀ a, s.nodes.cells a = none) ∧ (∀ a, s.users.cells a = none) ∧
      (∀ r, s.rcs r = none) ∧ (∀ l, s.lists l = none) ∧ (∀ a, s.pays.cells a = none) := by
  obtain ⟨s, g, h1, h2, h3⟩ := inv_execs c hcopy eqv hcmp ops inv_init h
  have tg := h3 (tight_init c)
  have hl : ∀ l, s.lists l = none := by
    intro l
    cases hh : s.lists l with
    | none => rfl
    | some L => have := (h2.lists l L hh).2.2.2.2; rw [hdead l] at this; cases this
  have hus : ∀ r, (g r).us = [] := by
    intro r
    cases hh : (g r).us with
    | nil => rfl
    | cons p ps =>
      obtain ⟨L, h4, _⟩ := h2.owner r p (by rw [hh]; simp)
      rw [hl] at h4; cases h4
  have hes : ∀ r, (g r).es = [] := fun r => h2.empty r (hus r)
  refine ⟨s, h1, ?_, ?_, ?_, hl, ?_⟩
  · intro a
    cases hh : s.nodes.cells a with
    | none => rfl
    | some n => obtain ⟨r, e, he, _⟩ := tg.node a (by rw [hh]; simp); rw [hes] at he; simp at he
  · intro a
    cases hh : s.users.cells a with
    | none => rfl
    | some n => obtain ⟨r, e, he, _⟩ := tg.user a (by rw [hh]; simp); rw [hus] at he; simp at he
  · intro r
    cases hh : s.rcs r with
    | none => rfl
    | some n => exact absurd (hus r) (tg.rc r (by rw [hh]; simp))
  · intro a
    cases hh : s.pays.cells a with
    | none => rfl
    | some n =>
      rcases tg.pay hdes a (by rw [hh]; simp) with ⟨r, e, he, _⟩ | hk
      · rw [hes] at he; simp at he
      · cases hk

/-- Non-vacuity: a history with sharing, deep copies and removal after which every handle is dead. -/
example : ∃ sp os, ListSpec.run (fun a b => decide (a = b)) (ListSpec.init : ListSpec.S Nat)
    [.new, .append 0 5, .append 0 6, .copy 0, .prepend 1 7, .remove 0 5, .copy 1, .destroy 1, .destroy 0, .destroy 2] = some (sp, os) ∧
    os.length = 10 ∧ ∀ l, sp.val l = none := by
  refine ⟨_, _, rfl, by decide, ?_⟩
  intro l
  by_cases h0 : l = 0
  · simp [ListSpec.S.set, ListSpec.init, h0]
  · by_cases h1 : l = 1
    · simp [ListSpec.S.set, ListSpec.init, h1]
    · by_cases h2 : l = 2 <;> simp [ListSpec.S.set, ListSpec.init, h0, h1, h2]

/-- More generally the live nodes, at any moment of any history, are no more than the elements of the live lists: with `n` live
handles of at most `m` elements each, there are at most `n * m` nodes. Stated on addresses: every allocated node is the node of an
element of a live list. -/
theorem C74_every_node_belongs_to_a_live_list {V : Type} (c : Cfg V) (hcopy : c.copy = true)
    (eqv : V → V → Bool) (hcmp : c.compare = some eqv)
    (ops : List (Op V)) (sp : ListSpec.S V) (os : List Out) (h : ListSpec.run eqv ListSpec.init ops = some (sp, os)) :
    ∃ s, execs c St.init ops = some (s, os) ∧ ∀ a n, s.nodes.cells a = some n → ∃ l xs p v, sp.val l = some xs ∧ n.data = .ptr p ∧
      s.pays.cells p = some v ∧ v ∈ xs := by
  obtain ⟨s, g, h1, h2, h3⟩ := inv_execs c hcopy eqv hcmp ops inv_init h
  have tg := h3 (tight_init c)
  refine ⟨s, h1, ?_⟩
  intro a n ha
  obtain ⟨r, e, he, hea⟩ := tg.node a (by rw [ha]; simp)
  have hne : (g r).us ≠ [] := by intro hh; rw [h2.empty r hh] at he; simp at he
  obtain ⟨p, hp⟩ := List.exists_mem_of_ne_nil _ hne
  obtain ⟨L, hL, hLr⟩ := h2.owner r p hp
  obtain ⟨_, _, _, hdl, hval⟩ := h2.lists _ L hL
  rw [hLr] at hdl hval
  refine ⟨p.2, _, e.2.1, e.2.2, hval, ?_, (h2.es r).pay e he, List.mem_map.mpr ⟨e, he, rfl⟩⟩
  obtain ⟨i, hi, hie⟩ := List.mem_iff_getElem.mp he
  have hc := hdl.cell i (by rw [ns_length]; exact hi)
  rw [ns_getElem, hie] at hc
  simp only at hc
  rw [hea, ha] at hc
  cases hc; rfl

/-! ## C75: iterators -/

/-- The iterator call `op`. -/
def itExec {V : Type} (s : St V) (it : Iter) : ItOp → Option (Iter × ItOut V)
  | .first => (ListIteratorFirst s it).map fun p => (p.1, .flag p.2)
  | .last => (ListIteratorLast s it).map fun p => (p.1, .flag p.2)
  | .next => (ListIteratorNext s it).map fun p => (p.1, .flag p.2)
  | .previous => (ListIteratorPrevious s it).map fun p => (p.1, .flag p.2)
  | .data => (ListIteratorData s it).map fun v => (it, .value v)
  | .hasNext => (ListIteratorHasNext s it).map fun b => (it, .flag b)
  | .hasPrevious => (ListIteratorHasPrevious s it).map fun b => (it, .flag b)

def itExecs {V : Type} (s : St V) (it : Iter) : List ItOp → Option (List (ItOut V))
  | [] => some []
  | op :: ops => do
    let (it, o) ← itExec s it op
    let os ← itExecs s it ops
    some (o :: os)

theorem itExecs_ok {V : Type} {s : St V} {sp : ListSpec.S V} {g : Nat → Grp V} (inv : Inv s sp g) {l : Nat} {L : Lst}
    (hl : s.lists l = some L) : ∀ ops i, i < (g L.refCount).es.length →
      itExecs s ⟨(g L.refCount).es[i]?.map (·.1), l, L.state⟩ ops = some (itRun ((g L.refCount).es.map (·.2.2)) i ops) := by
  obtain ⟨_, hlf, hcnt, hdl, hval⟩ := inv.lists l L hl
  have hok := inv.es L.refCount
  generalize (g L.refCount).es = es at *
  intro ops
  induction ops with
  | nil => intro i _; rfl
  | cons op ops ih =>
    intro i hi
    have hci := hdl.cell i (by rw [ns_length]; exact hi)
    rw [ns_getElem] at hci
    have hnx : ((ns es)[i+1]?).map (·.1) = (es[i+1]?).map (·.1) := by simp [ns]; rfl
    have hpv : ((ns es)[i-1]?).map (·.1) = (es[i-1]?).map (·.1) := by simp [ns]; rfl
    rw [hnx, hpv] at hci
    have hpay := hok.pay _ (List.getElem_mem hi)
    have hcur : es[i]?.map (·.1) = some es[i].1 := by rw [List.getElem?_eq_getElem hi]; rfl
    have hstep : itExec s ⟨es[i]?.map (·.1), l, L.state⟩ op = some (⟨es[(itStep (es.map (·.2.2)) i op).1]?.map (·.1), l, L.state⟩,
        (itStep (es.map (·.2.2)) i op).2) ∧ (itStep (es.map (·.2.2)) i op).1 < es.length := by
      cases op with
      | first =>
        have : L.first = es[0]?.map (·.1) := by rw [hdl.first_eq, List.head?_eq_getElem?]; simp [ns]; rfl
        simp only [itExec, ListIteratorFirst, iterUsable, hl, Option.bind_eq_bind, Option.bind_some, decide_true, if_true, Option.map_some,
          itStep, this]
        exact ⟨trivial, by omega⟩
      | last =>
        have : L.last = es[es.length - 1]?.map (·.1) := by
          rw [hdl.last_eq, List.getLast?_eq_getElem?, ns_length]; simp [ns]; rfl
        simp only [itExec, ListIteratorLast, iterUsable, hl, Option.bind_eq_bind, Option.bind_some, decide_true, if_true, Option.map_some,
          itStep, this, List.length_map]
        exact ⟨trivial, by omega⟩
      | next =>
        simp only [itExec, ListIteratorNext, iterUsable, hl, Option.bind_eq_bind, Option.bind_some, decide_true, if_true, hcur, hci,
          itStep, List.length_map]
        by_cases h1 : i + 1 < es.length
        · simp [List.getElem?_eq_getElem h1, h1]
        · simp [List.getElem?_eq_none (show es.length ≤ i + 1 by omega), h1, hi]
      | previous =>
        simp only [itExec, ListIteratorPrevious, iterUsable, hl, Option.bind_eq_bind, Option.bind_some, decide_true, if_true, hcur, hci,
          itStep]
        by_cases h1 : i = 0
        · simp [h1, show 0 < es.length by omega]
        · simp [List.getElem?_eq_getElem (show i - 1 < es.length by omega), h1, show 0 < i by omega, show i - 1 < es.length by omega]
      | data =>
        simp only [itExec, ListIteratorData, iterUsable, hl, Option.bind_eq_bind, Option.bind_some, decide_true, if_true, hcur, hci,
          itStep, hpay, Option.map_some, List.getElem?_map, List.getElem?_eq_getElem hi]
        exact ⟨trivial, hi⟩
      | hasNext =>
        simp only [itExec, ListIteratorHasNext, iterUsable, hl, Option.bind_eq_bind, Option.bind_some, decide_true, if_true, hcur, hci,
          itStep, Option.map_some, List.length_map]
        refine ⟨?_, hi⟩
        by_cases h1 : i + 1 < es.length
        · simp [List.getElem?_eq_getElem h1, h1]
        · simp [List.getElem?_eq_none (show es.length ≤ i + 1 by omega), h1]
      | hasPrevious =>
        simp only [itExec, ListIteratorHasPrevious, iterUsable, hl, Option.bind_eq_bind, Option.bind_some, decide_true, if_true, hcur, hci,
          itStep, Option.map_some]
        refine ⟨?_, hi⟩
        by_cases h1 : i = 0
        · simp [h1]
        · simp [List.getElem?_eq_getElem (show i - 1 < es.length by omega), h1, show 0 < i by omega]
    obtain ⟨e1, e2⟩ := hstep
    simp only [itExecs, itRun, e1, Option.bind_eq_bind, Option.bind_some, ih _ e2]

/-- C75. In every state reached by list calls: an iterator opened on a list is a cursor in that list's own sequence, starting at the
first element. Every sequence of First, Last, Next, Previous, Data, HasNext and HasPrevious calls returns what the cursor
returns (moves succeed exactly inside the list, a refused move leaves the cursor where it is) and touches no freed memory. No
iterator is given on an empty list. -/
theorem C75_iterator_is_a_cursor {V : Type} (c : Cfg V) (hcopy : c.copy = true) (eqv : V → V → Bool) (hcmp : c.compare = some eqv)
    (ops : List (Op V)) (sp : ListSpec.S V) (os : List Out) (h : ListSpec.run eqv ListSpec.init ops = some (sp, os)) :
    ∃ s, execs c St.init ops = some (s, os) ∧ ∀ l xs, sp.val l = some xs →
      (xs = [] → ListIteratorGet s l = some none) ∧
      (xs ≠ [] → ∃ it, ListIteratorGet s l = some (some it) ∧ ∀ its, itExecs s it its = some (itRun xs 0 its)) := by
  obtain ⟨s, g, h1, inv, _⟩ := inv_execs c hcopy eqv hcmp ops inv_init h
  refine ⟨s, h1, ?_⟩
  intro l xs hx
  obtain ⟨L, hl⟩ : ∃ L, s.lists l = some L := by
    cases hh : s.lists l with
    | none => rw [inv.dom l hh] at hx; cases hx
    | some L => exact ⟨L, rfl⟩
  obtain ⟨_, hlf, hcnt, hdl, hval⟩ := inv.lists l L hl
  rw [hval] at hx
  have hxe := Option.some.inj hx
  have hfp := first_ptr inv hl
  refine ⟨?_, ?_⟩
  · intro he
    rw [he] at hxe
    have : (g L.refCount).es = [] := by simpa using hxe
    rw [this] at hfp
    simp at hfp
    simp [ListIteratorGet, hl, ← hfp]
  · intro he
    have h0 : 0 < (g L.refCount).es.length := by
      cases hh : (g L.refCount).es with
      | nil => rw [hh] at hxe; exact absurd hxe.symm he
      | cons => simp
    have h2 := itExecs_ok inv hl
    refine ⟨⟨L.list, l, L.state⟩, ?_, ?_⟩
    · rw [List.getElem?_eq_getElem h0, Option.map_some] at hfp
      simp [ListIteratorGet, hl, ← hfp]
    · intro its
      have := h2 its 0 h0
      rw [hfp, ← hlf, hxe] at this
      exact this

/-- Non-vacuity: a two-element list and a walk off both ends. -/
example : ∃ sp os, ListSpec.run (fun a b => decide (a = b)) (ListSpec.init : ListSpec.S Nat) [.new, .append 0 5, .prepend 0 6] = some (sp, os) ∧
    sp.val 0 = some [6, 5] ∧ itRun [6, 5] 0 [.previous, .next, .data, .next, .hasPrevious, .first, .data, .last, .hasNext] =
      [.flag false, .flag true, .value (some 5), .flag false, .flag true, .flag true, .value (some 6), .flag true, .flag false] := by
  refine ⟨_, _, rfl, by decide, rfl⟩

theorem putList_same {V : Type} (s : St V) (l : Nat) (x : Option Lst) : (s.putList l x).lists l = x := by simp [St.putList]

/-- The `state` of a list that is still alive after a call is not smaller than before, and larger after a successful ListRemove on it. -/
theorem detach_state {V : Type} {c : Cfg V} {s s' : St V} {m l : Nat} {L : Lst} (hl : s.lists l = some L) (h : ListDetach c s m = some s') :
    (∃ L', s'.lists l = some L' ∧ L'.state = L.state) ∧ s'.lFresh = s.lFresh := by
  simp only [ListDetach, Option.bind_eq_bind, Option.bind_eq_some_iff] at h
  obtain ⟨Lm, h1, rc, h2, h3⟩ := h
  split at h3
  · simp only [Option.bind_eq_some_iff] at h3
    obtain ⟨⟨nodes, pays, first, last⟩, h4, d, h5, h6⟩ := h3
    cases d with
    | programmingError => simp at h6
    | ok users rc =>
      simp only [newRefCount, Option.bind_eq_bind, Option.bind_eq_some_iff] at h6
      obtain ⟨⟨s2, r⟩, h7, h8⟩ := h6
      obtain ⟨⟨u, r2⟩, h9, h10⟩ := h7
      simp only [Option.some.injEq, Prod.mk.injEq] at h10
      obtain ⟨rfl, rfl⟩ := h10
      cases h8
      by_cases hlm : l = m
      · subst hlm; rw [hl] at h1; cases h1
        exact ⟨⟨_, putList_same _ _ _, rfl⟩, rfl⟩
      · exact ⟨⟨L, by simp [St.putList, St.putRC, hlm, hl], rfl⟩, rfl⟩
  · cases h3; exact ⟨⟨L, hl, rfl⟩, rfl⟩

theorem exec_state {V : Type} {c : Cfg V} {s s' : St V} {l : Nat} {L : Lst} (hlt : l < s.lFresh) (hl : s.lists l = some L)
    {op : Op V} {o : Out} (h : exec c s op = some (s', o)) :
    s.lFresh ≤ s'.lFresh ∧ (s'.lists l = none ∨ ∃ L', s'.lists l = some L' ∧ L.state ≤ L'.state ∧
      (∀ v, op = .remove l v → o = .result 0 → L.state < L'.state)) := by
  have hne : l ≠ s.lFresh := by omega
  cases op with
  | new =>
    simp only [exec, ListNew, newRefCount, Option.bind_eq_bind, Option.bind_eq_some_iff] at h
    obtain ⟨⟨s1, a⟩, ⟨⟨s2, r⟩, ⟨⟨u, r2⟩, h1, h2⟩, h3⟩, h4⟩ := h
    simp only [Option.some.injEq, Prod.mk.injEq] at h2 h3 h4
    obtain ⟨rfl, rfl⟩ := h2; obtain ⟨rfl, rfl⟩ := h3; obtain ⟨rfl, rfl⟩ := h4
    exact ⟨by simp [St.putList], Or.inr ⟨L, by simp [St.putList, hne, hl], Nat.le_refl _, by simp⟩⟩
  | copy m =>
    simp only [exec, ListCopy, Option.bind_eq_bind, Option.bind_eq_some_iff] at h
    obtain ⟨⟨s1, r⟩, ⟨Lm, h1, h2⟩, h3⟩ := h
    split at h2
    · simp only [Option.bind_eq_some_iff] at h2
      obtain ⟨rc, h4, ⟨u, rc2⟩, h5, h6⟩ := h2
      simp only [Option.some.injEq, Prod.mk.injEq] at h6
      obtain ⟨rfl, rfl⟩ := h6
      simp only [Option.some.injEq, Prod.mk.injEq] at h3
      obtain ⟨rfl, rfl⟩ := h3
      exact ⟨by simp [St.putList, St.putRC], Or.inr ⟨L, by simp [St.putList, St.putRC, hne, hl], Nat.le_refl _, by simp⟩⟩
    · simp only [Option.some.injEq, Prod.mk.injEq] at h2
      obtain ⟨rfl, rfl⟩ := h2
      simp only [Option.some.injEq, Prod.mk.injEq] at h3
      obtain ⟨rfl, rfl⟩ := h3
      exact ⟨Nat.le_refl _, Or.inr ⟨L, hl, Nat.le_refl _, by simp⟩⟩
  | append m v =>
    simp only [exec, ListAppend, Option.bind_eq_bind, Option.bind_eq_some_iff] at h
    obtain ⟨s1, ⟨s2, h1, Lm, h2, h3⟩, h4⟩ := h
    obtain ⟨⟨L', d1, d2⟩, d3⟩ := detach_state (l := l) (L := L) (by exact hl) h1
    simp only at d3
    simp only [Option.some.injEq, Prod.mk.injEq] at h4
    obtain ⟨rfl, rfl⟩ := h4
    split at h3
    · simp only [Option.bind_eq_some_iff] at h3
      obtain ⟨n1, _, n2, _, h3⟩ := h3
      cases h3
      refine ⟨by simp [St.putList, d3], Or.inr ?_⟩
      by_cases hlm : l = m
      · subst hlm; rw [d1] at h2; cases h2
        exact ⟨_, putList_same _ _ _, by simp [d2], by simp⟩
      · exact ⟨L', by simp [St.putList, hlm, d1], by omega, by simp⟩
    · cases h3
      refine ⟨by simp [St.putList, d3], Or.inr ?_⟩
      by_cases hlm : l = m
      · subst hlm; rw [d1] at h2; cases h2
        exact ⟨_, putList_same _ _ _, by simp [d2], by simp⟩
      · exact ⟨L', by simp [St.putList, hlm, d1], by omega, by simp⟩
  | prepend m v =>
    simp only [exec, ListPrepend, Option.bind_eq_bind, Option.bind_eq_some_iff] at h
    obtain ⟨s1, ⟨s2, h1, Lm, h2, h3⟩, h4⟩ := h
    obtain ⟨⟨L', d1, d2⟩, d3⟩ := detach_state (l := l) (L := L) (by exact hl) h1
    simp only at d3
    simp only [Option.some.injEq, Prod.mk.injEq] at h4
    obtain ⟨rfl, rfl⟩ := h4
    split at h3
    · simp only [Option.bind_eq_some_iff] at h3
      obtain ⟨n1, _, n2, _, h3⟩ := h3
      cases h3
      refine ⟨by simp [St.putList, d3], Or.inr ?_⟩
      by_cases hlm : l = m
      · subst hlm; rw [d1] at h2; cases h2
        exact ⟨_, putList_same _ _ _, by simp [d2], by simp⟩
      · exact ⟨L', by simp [St.putList, hlm, d1], by omega, by simp⟩
    · cases h3
      refine ⟨by simp [St.putList, d3], Or.inr ?_⟩
      by_cases hlm : l = m
      · subst hlm; rw [d1] at h2; cases h2
        exact ⟨_, putList_same _ _ _, by simp [d2], by simp⟩
      · exact ⟨L', by simp [St.putList, hlm, d1], by omega, by simp⟩
  | remove m v =>
    simp only [exec, ListRemove, Option.bind_eq_bind, Option.bind_eq_some_iff] at h
    obtain ⟨⟨s1, r⟩, ⟨Lm, h1, b, h2, h3⟩, pays, h4, h5⟩ := h
    simp only [Option.some.injEq, Prod.mk.injEq] at h5
    obtain ⟨rfl, rfl⟩ := h5
    cases b with
    | false =>
      simp only [Bool.false_eq_true, if_false, Option.some.injEq, Prod.mk.injEq] at h3
      obtain ⟨rfl, rfl⟩ := h3
      exact ⟨by simp, Or.inr ⟨L, by simpa using hl, Nat.le_refl _, by simp⟩⟩
    | true =>
      simp only [if_true, Option.bind_eq_some_iff] at h3
      obtain ⟨s2, h5, Lm2, h6, on, h7, node, h8, n, h9, ⟨hh, Lm3⟩, h10, pays2, h11, hp2, h12, h13⟩ := h3
      simp only [Option.some.injEq, Prod.mk.injEq] at h13
      obtain ⟨rfl, rfl⟩ := h13
      obtain ⟨⟨L', d1, d2⟩, d3⟩ := detach_state (l := l) (L := L) (by exact hl) h5
      simp only at d3
      refine ⟨by simp [St.putList, d3], Or.inr ?_⟩
      have hst : Lm3.state = Lm2.state := by
        simp only [unlink] at h10
        split at h10
        · simp only [Option.bind_eq_bind, Option.bind_eq_some_iff] at h10
          obtain ⟨_, _, _, _, h10⟩ := h10; cases h10; rfl
        · simp only [Option.bind_eq_bind, Option.bind_eq_some_iff] at h10
          obtain ⟨_, _, h10⟩ := h10; cases h10; rfl
        · simp only [Option.bind_eq_bind, Option.bind_eq_some_iff] at h10
          obtain ⟨_, _, h10⟩ := h10; cases h10; rfl
        · cases h10; rfl
      by_cases hlm : l = m
      · subst hlm; rw [d1] at h6; cases h6
        exact ⟨_, putList_same _ _ _, by simp only; omega, by intro _ _ _; simp only; omega⟩
      · exact ⟨L', by simp [St.putList, hlm, d1], by omega, by intro v' hv; cases hv; exact absurd rfl hlm⟩
  | destroy m =>
    simp only [exec, ListDestroy, Option.bind_eq_bind, Option.bind_eq_some_iff] at h
    obtain ⟨s1, ⟨Lm, h1, rc, h2, h3⟩, h4⟩ := h
    simp only [Option.some.injEq, Prod.mk.injEq] at h4
    obtain ⟨rfl, rfl⟩ := h4
    split at h3
    · simp only [Option.bind_eq_some_iff] at h3
      obtain ⟨d, h5, h6⟩ := h3
      cases d with
      | programmingError => simp at h6
      | ok users rc2 =>
        cases h6
        refine ⟨by simp [St.putList, St.putRC], ?_⟩
        by_cases hlm : l = m
        · exact Or.inl (by simp [St.putList, hlm])
        · exact Or.inr ⟨L, by simp [St.putList, St.putRC, hlm, hl], Nat.le_refl _, by simp⟩
    · simp only [Option.bind_eq_some_iff] at h3
      obtain ⟨⟨nodes, pays⟩, h5, s2, h6, h7⟩ := h3
      cases h7
      have hs2 : s2.lists = s.lists ∧ s2.lFresh = s.lFresh := by
        simp only [RefCountDestroy, Option.bind_eq_bind, Option.bind_eq_some_iff] at h6
        obtain ⟨rc3, h8, h9⟩ := h6
        split at h9
        · cases h9; exact ⟨rfl, rfl⟩
        · split at h9
          · obtain ⟨u, _, h9'⟩ := Option.bind_eq_some_iff.mp h9
            cases h9'; exact ⟨rfl, rfl⟩
          · obtain ⟨u, _, h9'⟩ := Option.bind_eq_some_iff.mp h9
            cases h9'; exact ⟨rfl, rfl⟩
      refine ⟨by simp [St.putList, hs2.2], ?_⟩
      by_cases hlm : l = m
      · exact Or.inl (by simp [St.putList, hlm])
      · exact Or.inr ⟨L, by simp [St.putList, hlm, hs2.1, hl], Nat.le_refl _, by simp⟩

theorem exec_dead {V : Type} {c : Cfg V} {s s' : St V} {sp sp' : ListSpec.S V} {g g' : Nat → Grp V} {eqv : V → V → Bool}
    (inv : Inv s sp g) (inv' : Inv s' sp' g') {l : Nat} (hlt : l < s.lFresh) (hl : s.lists l = none) {op : Op V} {o : Out}
    (hs : ListSpec.step eqv sp op = some (sp', o)) : s'.lists l = none := by
  have h0 := inv.dom l hl
  have h1 : sp'.val l = none := by
    have hn := inv.next
    cases op with
    | new =>
      simp only [ListSpec.step, Option.some.injEq, Prod.mk.injEq] at hs
      obtain ⟨rfl, _⟩ := hs
      simp [ListSpec.S.set, h0, show l ≠ sp.next by omega]
    | copy m =>
      simp only [ListSpec.step, Option.map_eq_some_iff] at hs
      obtain ⟨xs, _, he⟩ := hs; cases he
      simp [ListSpec.S.set, h0, show l ≠ sp.next by omega]
    | append m v =>
      simp only [ListSpec.step, Option.map_eq_some_iff] at hs
      obtain ⟨xs, hx, he⟩ := hs; cases he
      have : l ≠ m := by intro hh; subst hh; rw [h0] at hx; cases hx
      simp [ListSpec.S.set, h0, this]
    | prepend m v =>
      simp only [ListSpec.step, Option.map_eq_some_iff] at hs
      obtain ⟨xs, hx, he⟩ := hs; cases he
      have : l ≠ m := by intro hh; subst hh; rw [h0] at hx; cases hx
      simp [ListSpec.S.set, h0, this]
    | remove m v =>
      simp only [ListSpec.step, Option.map_eq_some_iff] at hs
      obtain ⟨xs, hx, he⟩ := hs
      have : l ≠ m := by intro hh; subst hh; rw [h0] at hx; cases hx
      split at he
      · cases he; simp [ListSpec.S.set, h0, this]
      · cases he; exact h0
    | destroy m =>
      simp only [ListSpec.step, Option.map_eq_some_iff] at hs
      obtain ⟨xs, hx, he⟩ := hs; cases he
      simp [ListSpec.S.set, h0]
  cases hh : s'.lists l with
  | none => rfl
  | some L => have := (inv'.lists l L hh).2.2.2.2; rw [h1] at this; cases this

theorem execs_state {V : Type} (c : Cfg V) (hcopy : c.copy = true) (eqv : V → V → Bool) (hcmp : c.compare = some eqv) {l : Nat} :
    ∀ (ops : List (Op V)) {s : St V} {sp : ListSpec.S V} {g : Nat → Grp V} (_ : Inv s sp g) {sp' : ListSpec.S V} {os : List Out},
      ListSpec.run eqv sp ops = some (sp', os) → ∀ s', execs c s ops = some (s', os) → l < s.lFresh →
      (s.lists l = none → s'.lists l = none) ∧
      (∀ L, s.lists l = some L → s'.lists l = none ∨ ∃ L', s'.lists l = some L' ∧ L.state ≤ L'.state) := by
  intro ops
  induction ops with
  | nil =>
    intro s sp g inv sp' os h s' he hlt
    simp [execs] at he
    obtain ⟨rfl, rfl⟩ := he
    exact ⟨fun h => h, fun L hL => Or.inr ⟨L, hL, Nat.le_refl _⟩⟩
  | cons op ops ih =>
    intro s sp g inv sp' os h s' he hlt
    simp only [ListSpec.run] at h
    split at h
    · cases h
    · rename_i sp1 o h1
      split at h
      · cases h
      · rename_i sp2 os2 h2
        cases h
        obtain ⟨s1, g1, e1, i1, _⟩ := inv_exec c hcopy eqv hcmp inv op h1
        simp only [execs, e1, Option.bind_eq_bind, Option.bind_some, Option.bind_eq_some_iff] at he
        obtain ⟨⟨s3, os3⟩, e2, e3⟩ := he
        simp only [Option.some.injEq, Prod.mk.injEq, List.cons.injEq, true_and] at e3
        obtain ⟨rfl, rfl⟩ := e3
        have hf : s.lFresh ≤ s1.lFresh := by
          rw [← inv.next, ← i1.next]
          cases op with
          | new => simp only [ListSpec.step, Option.some.injEq, Prod.mk.injEq] at h1; obtain ⟨rfl, _⟩ := h1; simp
          | remove m v =>
            simp only [ListSpec.step, Option.map_eq_some_iff] at h1
            obtain ⟨xs, hx, he⟩ := h1
            split at he <;> (cases he; simp [ListSpec.S.set])
          | copy m => simp only [ListSpec.step, Option.map_eq_some_iff] at h1; obtain ⟨xs, hx, he⟩ := h1; cases he; simp
          | append m v => simp only [ListSpec.step, Option.map_eq_some_iff] at h1; obtain ⟨xs, hx, he⟩ := h1; cases he; simp [ListSpec.S.set]
          | prepend m v => simp only [ListSpec.step, Option.map_eq_some_iff] at h1; obtain ⟨xs, hx, he⟩ := h1; cases he; simp [ListSpec.S.set]
          | destroy m => simp only [ListSpec.step, Option.map_eq_some_iff] at h1; obtain ⟨xs, hx, he⟩ := h1; cases he; simp [ListSpec.S.set]
        obtain ⟨j1, j2⟩ := ih i1 h2 s3 e2 (by omega)
        refine ⟨fun hn => j1 (exec_dead (c := c) inv i1 hlt hn h1), ?_⟩
        intro L hL
        rcases (exec_state hlt hL e1).2 with hn | ⟨L1, k1, k2, _⟩
        · exact Or.inl (j1 hn)
        · rcases j2 L1 k1 with hn | ⟨L2, m1, m2⟩
          · exact Or.inl hn
          · exact Or.inr ⟨L2, m1, by omega⟩

/-- C75, staleness. Take any history `ops1`, an iterator usable on list `l` at that point, then a ListRemove on `l` that found its
element, then any further history `ops2` after which `l` is still alive: every call on the old iterator is refused (moves and Has...
return failure, Data returns NULL) and leaves it unchanged; in particular it never touches the removed node. -/
theorem C75_iterator_refused_after_remove {V : Type} (c : Cfg V) (hcopy : c.copy = true) (eqv : V → V → Bool) (hcmp : c.compare = some eqv)
    (ops1 ops2 : List (Op V)) (l : Nat) (v : V) (sp1 sp2 sp3 : ListSpec.S V) (os1 os3 : List Out)
    (h1 : ListSpec.run eqv ListSpec.init ops1 = some (sp1, os1)) (h2 : ListSpec.step eqv sp1 (.remove l v) = some (sp2, .result 0))
    (h3 : ListSpec.run eqv sp2 ops2 = some (sp3, os3)) (hlive : sp3.val l ≠ none) :
    ∃ s1 s2 s3, execs c St.init ops1 = some (s1, os1) ∧ exec c s1 (.remove l v) = some (s2, .result 0) ∧ execs c s2 ops2 = some (s3, os3) ∧
      ∀ it : Iter, it.origin = l → iterUsable s1 it = some true →
        ListIteratorNext s3 it = some (it, false) ∧ ListIteratorPrevious s3 it = some (it, false) ∧
        ListIteratorFirst s3 it = some (it, false) ∧ ListIteratorLast s3 it = some (it, false) ∧
        ListIteratorData s3 it = some none ∧ ListIteratorHasNext s3 it = some false ∧ ListIteratorHasPrevious s3 it = some false := by
  obtain ⟨s1, g1, e1, i1, _⟩ := inv_execs c hcopy eqv hcmp ops1 inv_init h1
  obtain ⟨s2, g2, e2, i2, _⟩ := inv_exec c hcopy eqv hcmp i1 _ h2
  obtain ⟨s3, g3, e3, i3, _⟩ := inv_execs c hcopy eqv hcmp ops2 i2 h3
  refine ⟨s1, s2, s3, e1, e2, e3, ?_⟩
  intro it ho hu
  subst ho
  simp only [iterUsable, Option.bind_eq_bind, Option.bind_eq_some_iff, Option.some.injEq, decide_eq_true_eq] at hu
  obtain ⟨L1, hL1, hst⟩ := hu
  have hlt : it.origin < s1.lFresh := by
    rcases Nat.lt_or_ge it.origin s1.lFresh with h | h
    · exact h
    · rw [i1.dead _ h] at hL1; cases hL1
  obtain ⟨hf, hr⟩ := exec_state hlt hL1 e2
  obtain ⟨j1, j2⟩ := execs_state c hcopy eqv hcmp (l := it.origin) ops2 i2 h3 s3 e3 (by omega)
  obtain ⟨L3, hL3⟩ : ∃ L3, s3.lists it.origin = some L3 := by
    cases hh : s3.lists it.origin with
    | none => exact absurd (i3.dom _ hh) hlive
    | some L => exact ⟨L, rfl⟩
  have hgt : L1.state < L3.state := by
    rcases hr with hn | ⟨L2, k1, k2, k3⟩
    · rw [j1 hn] at hL3; cases hL3
    · have := k3 v rfl rfl
      rcases j2 L2 k1 with hn | ⟨L', m1, m2⟩
      · rw [hn] at hL3; cases hL3
      · rw [m1] at hL3; cases hL3; omega
  have hno : iterUsable s3 it = some false := by
    simp [iterUsable, hL3, show it.state ≠ L3.state by omega]
  simp [ListIteratorNext, ListIteratorPrevious, ListIteratorFirst, ListIteratorLast, ListIteratorData, ListIteratorHasNext,
    ListIteratorHasPrevious, hno]

/-- Non-vacuity. -/
example : ∃ sp1 sp2 sp3 os1 os3, ListSpec.run (fun a b => decide (a = b)) (ListSpec.init : ListSpec.S Nat) [.new, .append 0 5, .append 0 6] = some (sp1, os1) ∧
    ListSpec.step (fun a b => decide (a = b)) sp1 (.remove 0 5) = some (sp2, .result 0) ∧
    ListSpec.run (fun a b => decide (a = b)) sp2 [.append 0 9] = some (sp3, os3) ∧ sp3.val 0 = some [6, 9] :=
  ⟨_, _, _, _, _, rfl, rfl, rfl, by decide⟩
