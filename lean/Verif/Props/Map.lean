import Verif.Lemmas.Map
/-! # C07, C08: map.c is a finite map that destroys every key and value exactly once -/
open CMap MapSpec

/-- **C07**. For every history `h` (newest call first) of inserts, removes and clears, with any equivalence and compatible
hash: no undefined behaviour occurs (no array overrun, no failed assertion), `MapGet`/`MapHasKey` answer the last
non-removed insert, iteration enumerates the live pairs once each, `MapSize` is their number, and the next call returns
whether an equal key is present. -/
theorem C07_map_is_a_finite_map {K V : Type} (f : Fns K) (hf : Lawful f) (h : List (Op K V)) :
    ∃ m d l, runImpl f h = some (m, d) ∧
      (∀ k, mapGet f m k = some ((lookup f.eq h k).map (·.2))) ∧
      (∀ k, mapHasKey f m k = some (lookup f.eq h k).isSome) ∧
      mapIterate m = some l ∧ Enumerates f.eq (lookup f.eq h) l ∧ mapSize m = some l.length ∧
      ∀ op, ∃ m' d', stepImpl f m op = some (m', expectedReturn f.eq h op, d') := by
  obtain ⟨m, d, l, e, H⟩ := run_spec hf h
  refine ⟨m, d, l, e, ?_, ?_, mapIterate_spec H.inv, H.enum hf, mapSize_spec H.inv, ?_⟩
  · intro k; simp [mapGet, mapGetRaw_spec hf H.inv, H.look]
  · intro k; simp [mapHasKey, mapGetRaw_spec hf H.inv, H.look]
  · intro op
    obtain ⟨m', d', -, e', -⟩ := step_spec hf H op
    exact ⟨m', d', e'⟩

/-- **C08**. After every history, the keys passed to the key destructor together with the keys still reachable by iteration
are exactly the keys handed to the map (as multisets, so each is destroyed at most once and never while reachable), the same
for values; the next insert or remove destroys exactly the pair stored for an equal key, a clear exactly the reachable
pairs; after `MapDestroy` everything inserted has been destroyed exactly once, and `MapSoftDestroy` destroys all remaining
keys and no value. -/
theorem C08_map_destroys_exactly_once {K V : Type} (f : Fns K) (hf : Lawful f) (h : List (Op K V)) :
    ∃ m d l, runImpl f h = some (m, d) ∧ mapIterate m = some l ∧
      (d.keys ++ l.map (·.1)).Perm (insertedKeys h) ∧ (d.vals ++ l.map (·.2)).Perm (insertedVals h) ∧
      (∀ k v, ∃ m' b, mapInsert f m k v =
        some (m', b, ⟨(lookup f.eq h k).toList.map (·.1), (lookup f.eq h k).toList.map (·.2)⟩)) ∧
      (∀ k, ∃ m' b, mapRemove f m k =
        some (m', b, ⟨(lookup f.eq h k).toList.map (·.1), (lookup f.eq h k).toList.map (·.2)⟩)) ∧
      (∃ m' dc, mapClear m = some (m', dc) ∧ dc.keys.Perm (l.map (·.1)) ∧ dc.vals.Perm (l.map (·.2))) ∧
      (∃ dd, mapDestroy m = some dd ∧ (d.keys ++ dd.keys).Perm (insertedKeys h) ∧
        (d.vals ++ dd.vals).Perm (insertedVals h)) ∧
      (∃ ds, mapSoftDestroy m = some ds ∧ (d.keys ++ ds.keys).Perm (insertedKeys h) ∧ ds.vals = []) := by
  obtain ⟨m, d, l, e, H⟩ := run_spec hf h
  refine ⟨m, d, l, e, mapIterate_spec H.inv, H.keys, H.vals, ?_, ?_, ?_, ?_, ?_⟩
  · intro k v
    obtain ⟨m', l', e', -⟩ := mapInsert_spec hf H.inv k v
    rw [H.look] at e'; exact ⟨m', _, e'⟩
  · intro k
    obtain ⟨m', l', e', -⟩ := mapRemove_spec hf H.inv k
    rw [H.look] at e'; exact ⟨m', _, e'⟩
  · obtain ⟨m', dl, hp, e', -⟩ := mapClear_spec H.inv
    exact ⟨m', _, e', hp.map _, hp.map _⟩
  · obtain ⟨dl, hp, e'⟩ := mapDestroy_spec H.inv
    exact ⟨_, e', ((hp.map _).append_left _).trans H.keys, ((hp.map _).append_left _).trans H.vals⟩
  · obtain ⟨dl, hp, e'⟩ := mapSoftDestroy_spec H.inv
    exact ⟨_, e', ((hp.map _).append_left _).trans H.keys, rfl⟩

/-- Non-vacuity: keys equal modulo 100, hashed by their last digit. -/
def demoFns : Fns Nat := ⟨fun a b => a % 100 == b % 100, fun a => a % 10⟩

theorem demoFns_lawful : Lawful demoFns := by
  refine ⟨by simp [demoFns], ?_, ?_, ?_⟩
  · intro a b h; simp [demoFns] at *; omega
  · intro a b c h1 h2; simp [demoFns] at *; omega
  · intro a b h; simp [demoFns] at *; omega

-- Twenty keys force the conversion to a hash map; then key 105 replaces key 5, key 7 is removed.
example : (runImpl demoFns (.remove 207 :: .insert 105 "x" :: (List.range 20).map (fun i => Op.insert i "v"))).map
    (fun r => (r.2.keys, match r.1 with | .arr _ => false | .hash _ => true)) = some ([5, 7], true) := by decide +kernel

example : lookup demoFns.eq (.remove 207 :: .insert 105 "x" :: (List.range 20).map (fun i => Op.insert i "v")) 5 =
    some (105, "x") := by decide
