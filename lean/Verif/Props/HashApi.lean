import Verif.Model.HashApi
import Verif.Spec.HashApi
import Verif.Props.Hash
import Verif.Lemmas.Buffer
import Verif.Props.Logging
/-! # C114 - C116: digests -/
namespace Hash
open HashSpec StrSpec

theorem name_eq (m : Method) (h : m ≠ .none) : names[m.id]? = some (nameOf m) ∧ ¬m.id ≥ Method.id .none := by cases m <;> first | exact absurd rfl h | exact ⟨rfl, by decide⟩

theorem has_length {L : Lib} (hA : Assumed L) {m : Method} {f : Bytes → Bytes} (h : Has L m f) : (∀ x, (f x).length = size m) ∧ (m ≠ .best ∧ m ≠ .crypt ∧ m ≠ .none) ∧ size m ≤ 64 := by
  obtain ⟨h1, h2, _⟩ := h
  cases m with
  | md5 => exact ⟨hA.md5 f h2, by decide, by decide⟩
  | sha224 => exact ⟨hA.sha224 f h2, by decide, by decide⟩
  | sha256 => exact ⟨hA.sha256 f h2, by decide, by decide⟩
  | sha384 => exact ⟨hA.sha384 f h2, by decide, by decide⟩
  | sha512 => exact ⟨hA.sha512 f h2, by decide, by decide⟩
  | sha1 => exact ⟨hA.sha1 f h2, by decide, by decide⟩
  | sha => exact ⟨hA.sha f h2, by decide, by decide⟩
  | best => simp [nameOf, hA.best] at h2
  | crypt => simp [nameOf, hA.crypt] at h2
  | none => exact absurd rfl h1

theorem str_stored {m m' : List (Option UInt8)} {n : Nat} {s : Bytes} (h : Stored m m' n s) : CMem.str m' = some s := CMem.str_holds h.string

theorem store_front (m : List (Option UInt8)) (xs : Bytes) (h : xs.length ≤ m.length) : CMem.store m 0 xs = some (xs.map some ++ m.drop xs.length) := by
  rw [CMem.store_eq (by omega)]; simp

theorem finish_shows {L : Lib} (hA : Assumed L) {m : Method} {f : Bytes → Bytes} (h : Has L m f) (acc : Bytes) : ∃ o, finish f acc m = some o ∧ Shows o m (f acc) := by
  obtain ⟨hl, hne, hs⟩ := has_length hA h
  have e1 : CMem.store (basicInit m).digest 0 (f acc) = some ((f acc).map some ++ (List.replicate 64 (some 0)).drop (f acc).length) := by
    exact store_front _ _ (by rw [hl]; simp only [basicInit, List.length_replicate]; exact hs)
  have e2 : CMem.getRange ((f acc).map some ++ (List.replicate 64 (some 0)).drop (f acc).length) 0 (size m) = some (f acc) := by
    rw [Buffer.getRange_at _ _ _ _ (by rw [hl]; omega), List.drop_zero, List.take_of_length_le (by rw [hl]; exact Nat.le_refl _)]
  obtain ⟨p, pre, e3, h3, h4⟩ := C52_printable (List.replicate 256 (some 0)) (f acc) m List.length_replicate (by rw [hl]; exact Nat.le_refl _)
  refine ⟨⟨_, p, m, size m⟩, by simp only [finish, e1, Option.bind_eq_bind, Option.bind_some, show (basicInit m).size = size m from rfl, e2, show (basicInit m).printable = List.replicate 256 (some 0) from rfl, e3]; rfl, rfl, ?_, ?_, ?_⟩
  · simp [lengthOf, hl]
  · exact e2
  · have := str_stored h3
    simp only [printableOf, this]
    rw [h4, List.take_of_length_le (by rw [hl]; exact Nat.le_refl _)]
    simp [hne]

theorem update_ok (acc xs : Bytes) (more : List (Option UInt8)) : update acc (xs.map some ++ more) xs.length = some (acc ++ xs) := by
  unfold update
  rw [if_pos (by simp), Buffer.getRange_at _ _ _ _ (by omega)]
  simp

/-- HashNew gives the digest of exactly the bytes passed in, and shows it. -/
theorem C114_hashNew (L : Lib) (hA : Assumed L) (m : Method) (f : Bytes → Bytes) (h : Has L m f) (xs : Bytes) (hx : xs ≠ []) (more : List (Option UInt8)) :
    ∃ o, new L (some (xs.map some ++ more)) xs.length m = some (some o) ∧ Shows o m (f xs) := by
  obtain ⟨o, e, hs⟩ := finish_shows hA h xs
  obtain ⟨h1, h2, h3, h4⟩ := h
  have hn := name_eq m h1
  refine ⟨o, ?_, hs⟩
  simp only [new, List.length_eq_zero_iff, hx, if_false, hn.1, hn.2, Option.bind_eq_bind, Option.bind_some, h2, h3, if_true, update_ok, List.nil_append, e]

theorem store_chunk (xs : Bytes) (h : xs.length ≤ 1024) : CMem.store (List.replicate 1024 none) 0 xs = some (xs.map some ++ (List.replicate 1024 none).drop xs.length) := by
  exact store_front _ _ (by rw [List.length_replicate]; exact h)

/-- Only successful reads. -/
def Reads (s : List Io.Ev) : Prop := ∀ e ∈ s, ∃ k, e = .got k

theorem fdLoop_ok : ∀ (s : List Io.Ev) (acc rest : Bytes), Reads s → fdLoop acc rest s = some .pending ∧ s.length ≤ rest.length ∨ ∃ fd, fdLoop acc rest s = some (.done (acc ++ rest, fd)) := by
  intro s
  induction s with
  | nil => intro acc rest _; exact .inl ⟨rfl, by simp⟩
  | cons e s ih =>
    intro acc rest hr
    obtain ⟨k, rfl⟩ := hr e (by simp)
    have hr' : Reads s := fun e he => hr e (by simp [he])
    have hn : Io.readN k 1024 rest ≤ 1024 ∧ Io.readN k 1024 rest ≤ rest.length := by unfold Io.readN; omega
    have hlen : (rest.take (Io.readN k 1024 rest)).length = Io.readN k 1024 rest := by simp; omega
    have hu := update_ok acc (rest.take (Io.readN k 1024 rest)) ((List.replicate 1024 none).drop (rest.take (Io.readN k 1024 rest)).length)
    rw [hlen] at hu
    have hs := store_chunk (rest.take (Io.readN k 1024 rest)) (by omega)
    rw [hlen] at hs
    simp only [fdLoop, hs, Option.bind_eq_bind, Option.bind_some, hu]
    by_cases h0 : Io.readN k 1024 rest > 0
    · simp only [h0, if_true]
      rcases ih (acc ++ rest.take (Io.readN k 1024 rest)) (rest.drop (Io.readN k 1024 rest)) hr' with ⟨h, hl⟩ | ⟨fd, h⟩
      · exact .inl ⟨h, by simp at hl ⊢; omega⟩
      · refine .inr ⟨fd, ?_⟩
        rw [h, List.append_assoc, List.take_append_drop]
    · simp only [h0, if_false]
      have hre : rest = [] := by
        cases rest with
        | nil => rfl
        | cons a r => exfalso; apply h0; simp [Io.readN]; omega
      subst hre
      exact .inr ⟨⟨[], s⟩, by simp⟩

/-- HashNewFromDescriptor gives the digest of everything that can be read, however the reads cut it up; it ends after at most one read more than there are bytes. Missing: failing reads, for which it is false (see the findings). -/
theorem C114_descriptor_partial (L : Lib) (hA : Assumed L) (m : Method) (f : Bytes → Bytes) (h : Has L m f) (fd : Int) (hfd : 0 ≤ fd) (rest : Bytes) (s : List Io.Ev) (hs : Reads s) :
    (newFromDescriptor L fd rest s m = some .pending ∧ s.length ≤ rest.length) ∨ ∃ o, newFromDescriptor L fd rest s m = some (.done (some o)) ∧ Shows o m (f rest) := by
  obtain ⟨o, e, hsh⟩ := finish_shows hA h rest
  obtain ⟨h1, h2, h3, h4⟩ := h
  have hn := name_eq m h1
  have hd : digestFromId L m = some f := by simp only [digestFromId, nameFromId, hn.2, if_false, hn.1, h2]
  have hfd' : ¬fd < 0 := by omega
  rcases fdLoop_ok s [] rest hs with ⟨hp, hl⟩ | ⟨fd', hp⟩
  · left; exact ⟨by simp only [newFromDescriptor, hfd', hn.2, if_false, hd, h3, h4, if_true, hp, Option.bind_eq_bind, Option.bind_some], hl⟩
  · right
    refine ⟨o, ?_, hsh⟩
    simp only [newFromDescriptor, hfd', hn.2, if_false, hd, h3, h4, if_true, hp, Option.bind_eq_bind, Option.bind_some, List.nil_append, e]

theorem memset_digest (digest : List (Option UInt8)) (h : digest.length = 65) : CMem.memset digest 0 0 65 = some (List.replicate 65 (some 0)) := by
  unfold CMem.memset
  rw [if_pos (by omega), List.take_zero, List.nil_append, List.drop_of_length_le (by omega), List.append_nil]

/-- The caller's array afterwards: the digest, then zeros. -/
def padded (d : Bytes) : List (Option UInt8) := d.map some ++ List.replicate (65 - d.length) (some 0)

theorem final_ok {f : Bytes → Bytes} {acc : Bytes} (h : (f acc).length ≤ 64) : final f acc (List.replicate 65 (some 0)) = some (padded (f acc)) := by
  unfold final padded
  rw [store_front _ _ (by rw [List.length_replicate]; omega), List.drop_replicate]

/-- HashString stores the digest of the first `len` bytes, followed by zeros. -/
theorem C114_hashString (L : Lib) (hA : Assumed L) (m : Method) (f : Bytes → Bytes) (h : Has L m f) (xs : Bytes) (more digest : List (Option UInt8)) (hd : digest.length = 65) :
    hashString L (xs.map some ++ more) xs.length digest m = some (padded (f xs)) := by
  obtain ⟨hl, hne, hs⟩ := has_length hA h
  obtain ⟨h1, h2, h3, h4⟩ := h
  have hn := name_eq m h1
  have hdg : digestFromId L m = some f := by simp only [digestFromId, nameFromId, hn.2, if_false, hn.1, h2]
  have hneg : ¬((xs.length : Int) < 0) := by omega
  simp only [hashString, hne.2.1, if_false, memset_digest digest hd, Option.bind_eq_bind, Option.bind_some, hdg, h3, h4, if_true, hneg, Int.toNat_natCast, update_ok, List.nil_append]
  exact final_ok (by rw [hl]; exact hs)

theorem streamLoop_ok : ∀ (s : List Io.Ev) (acc rest : Bytes), Reads s → streamLoop acc rest s = some .pending ∧ s.length ≤ rest.length ∨ streamLoop acc rest s = some (.done (acc ++ rest)) := by
  intro s
  induction s with
  | nil => intro acc rest _; exact .inl ⟨rfl, by simp⟩
  | cons e s ih =>
    intro acc rest hr
    obtain ⟨k, rfl⟩ := hr e (by simp)
    have hr' : Reads s := fun e he => hr e (by simp [he])
    have hn : Io.readN k 1024 rest ≤ 1024 ∧ Io.readN k 1024 rest ≤ rest.length := by unfold Io.readN; omega
    have hlen : (rest.take (Io.readN k 1024 rest)).length = Io.readN k 1024 rest := by simp; omega
    have hu := update_ok acc (rest.take (Io.readN k 1024 rest)) ((List.replicate 1024 none).drop (rest.take (Io.readN k 1024 rest)).length)
    rw [hlen] at hu
    have hs := store_chunk (rest.take (Io.readN k 1024 rest)) (by omega)
    rw [hlen] at hs
    simp only [streamLoop, hs, Option.bind_eq_bind, Option.bind_some, hu]
    by_cases h0 : Io.readN k 1024 rest = 0
    · simp only [h0, ne_eq, not_true_eq_false, if_false]
      have hre : rest = [] := by
        cases rest with
        | nil => rfl
        | cons a r => exfalso; simp [Io.readN] at h0
      subst hre
      exact .inr (by simp)
    · simp only [h0, ne_eq, not_false_eq_true, if_true]
      rcases ih (acc ++ rest.take (Io.readN k 1024 rest)) (rest.drop (Io.readN k 1024 rest)) hr' with ⟨h, hl⟩ | h
      · exact .inl ⟨h, by simp at hl ⊢; omega⟩
      · refine .inr ?_
        rw [h, List.append_assoc, List.take_append_drop]

/-- HashFile stores the digest of the whole file, followed by zeros, however the reads cut it up. Missing: failing reads, for which it is false (see the findings). -/
theorem C114_hashFile_partial (L : Lib) (hA : Assumed L) (m : Method) (f : Bytes → Bytes) (h : Has L m f) (content : Bytes) (s : List Io.Ev) (hr : Reads s) (digest : List (Option UInt8)) (hd : digest.length = 65) :
    (hashFile L (some content) s digest m = some .pending ∧ s.length ≤ content.length) ∨ hashFile L (some content) s digest m = some (.done (padded (f content))) := by
  obtain ⟨hl, hne, hs⟩ := has_length hA h
  obtain ⟨h1, h2, h3, h4⟩ := h
  have hn := name_eq m h1
  have hdg : digestFromId L m = some f := by simp only [digestFromId, nameFromId, hn.2, if_false, hn.1, h2]
  rcases streamLoop_ok s [] content hr with ⟨hp, hlen⟩ | hp
  · exact .inl ⟨by simp only [hashFile, memset_digest digest hd, Option.bind_eq_bind, Option.bind_some, hdg, h3, h4, if_true, hp], hlen⟩
  · refine .inr ?_
    simp only [hashFile, memset_digest digest hd, Option.bind_eq_bind, Option.bind_some, hdg, h3, h4, if_true, hp, List.nil_append, final_ok (by rw [hl]; exact hs : (f content).length ≤ 64)]

/-- Without the digest (or a library that fails), the constructors return NULL and the others leave zeros. -/
theorem C114_unsupported (L : Lib) (m : Method) (h : m = .none ∨ L.byName (nameOf m) = none ∨ L.ctxOk = false) (x : Bytes) (more : List (Option UInt8)) (fd : Int) (s : List Io.Ev) (digest : List (Option UInt8))
    (hd : digest.length = 65) :
    new L (some (x.map some ++ more)) x.length m = some none ∧ newFromDescriptor L fd x s m = some (.done none) ∧ hashFile L (some x) s digest m = some (.done (List.replicate 65 (some 0))) ∧
      (m ≠ .crypt → hashString L (x.map some ++ more) x.length digest m = some (List.replicate 65 (some 0))) := by
  by_cases h0 : m = .none
  · subst h0
    have hdg : digestFromId L .none = none := rfl
    refine ⟨?_, ?_, ?_, fun _ => ?_⟩
    · unfold new; simp
    · unfold newFromDescriptor; split <;> simp
    · simp only [hashFile, memset_digest digest hd, Option.bind_eq_bind, Option.bind_some, hdg]
    · simp only [hashString, memset_digest digest hd, Option.bind_eq_bind, Option.bind_some, hdg]; rfl
  · have hn := name_eq m h0
    have h' : L.byName (nameOf m) = none ∨ L.ctxOk = false := by rcases h with h | h; exact absurd h h0; exact h
    cases hb : L.byName (nameOf m) with
    | none =>
      have hdg : digestFromId L m = none := by simp only [digestFromId, nameFromId, hn.2, if_false, hn.1, hb]
      refine ⟨?_, ?_, ?_, fun hc => ?_⟩
      · simp only [new, hn.1, hn.2, if_false, Option.bind_eq_bind, Option.bind_some, hb]; split <;> rfl
      · simp only [newFromDescriptor, hn.2, if_false, hdg]; split <;> rfl
      · simp only [hashFile, memset_digest digest hd, Option.bind_eq_bind, Option.bind_some, hdg]
      · simp only [hashString, hc, if_false, memset_digest digest hd, Option.bind_eq_bind, Option.bind_some, hdg]
    | some f =>
      rw [hb] at h'
      have hc : L.ctxOk = false := by simpa using h'
      have hdg : digestFromId L m = some f := by simp only [digestFromId, nameFromId, hn.2, if_false, hn.1, hb]
      refine ⟨?_, ?_, ?_, fun hcr => ?_⟩
      · simp only [new, hn.1, hn.2, if_false, Option.bind_eq_bind, Option.bind_some, hb, hc]; split <;> rfl
      · simp only [newFromDescriptor, hn.2, if_false, hdg, hc]; split <;> rfl
      · simp only [hashFile, memset_digest digest hd, Option.bind_eq_bind, Option.bind_some, hdg, hc]; rfl
      · simp only [hashString, hcr, if_false, memset_digest digest hd, Option.bind_eq_bind, Option.bind_some, hdg, hc]; rfl

/-! ## C115: comparing, copying, names -/

theorem getRange_get : ∀ (n s : Nat) (m : List (Option UInt8)) (d : Bytes), CMem.getRange m s n = some d → d.length = n ∧ ∀ i, i < n → CMem.get m (s + i) = d[i]? := by
  intro n
  induction n with
  | zero => intro s m d h; simp only [CMem.getRange, Option.some.injEq] at h; subst h; exact ⟨rfl, fun i hi => by omega⟩
  | succ n ih =>
    intro s m d h
    simp only [CMem.getRange, Option.bind_eq_bind, Option.bind_eq_some_iff, Option.some.injEq] at h
    obtain ⟨x, hx, xs, hxs, rfl⟩ := h
    obtain ⟨h1, h2⟩ := ih (s + 1) m xs hxs
    refine ⟨by simp [h1], fun i hi => ?_⟩
    cases i with
    | zero => simpa using hx
    | succ i => have := h2 i (by omega); rw [show s + (i + 1) = s + 1 + i by omega, this]; simp

theorem equalLoop_eq : ∀ (n i : Nat) (a b : List (Option UInt8)) (x y : Bytes), CMem.getRange a i n = some x → CMem.getRange b i n = some y → equalLoop a b i n = some (decide (x = y)) := by
  intro n
  induction n with
  | zero => intro i a b x y hx hy; simp only [CMem.getRange, Option.some.injEq] at hx hy; subst hx hy; simp [equalLoop]
  | succ n ih =>
    intro i a b x y hx hy
    simp only [CMem.getRange, Option.bind_eq_bind, Option.bind_eq_some_iff, Option.some.injEq] at hx hy
    obtain ⟨x0, h1, xs, h2, rfl⟩ := hx
    obtain ⟨y0, h3, ys, h4, rfl⟩ := hy
    simp only [equalLoop, h1, h3, Option.bind_eq_bind, Option.bind_some]
    by_cases h : x0 = y0
    · subst h; simp [ih (i + 1) a b xs ys h2 h4]
    · simp [h]

/-- HashEqual: the same method and the same digest (and two NULLs are equal, NULL and a hash are not). -/
theorem C115_equal (a b : Obj) (m n : Method) (d e : Bytes) (ha : Shows a m d) (hb : Shows b n e) (hs : m = n → d.length = e.length) :
    equal (some a) (some b) = some (decide (m = n ∧ d = e)) ∧ equal none none = some true ∧ equal (some a) none = some false ∧ equal none (some b) = some false := by
  refine ⟨?_, rfl, rfl, rfl⟩
  have h1 : a.method = m := ha.type
  have h2 : b.method = n := hb.type
  simp only [equal, h1, h2]
  by_cases h : m = n
  · have hd : CMem.getRange a.digest 0 a.size = some d := ha.data
    have he : CMem.getRange b.digest 0 b.size = some e := hb.data
    have hl : a.size = b.size := by have h1 : a.size = d.length := ha.length; have h2 : b.size = e.length := hb.length; rw [h1, h2, hs h]
    rw [← hl] at he
    simp only [h, ne_eq, not_true_eq_false, if_false, true_and]
    exact equalLoop_eq _ _ _ _ _ _ hd he
  · simp [h]

/-- HashCopy makes a hash that shows the same. -/
theorem C115_copy (a : Obj) (m : Method) (d : Bytes) (ha : Shows a m d) (hd : d.length ≤ 64) : ∃ b, copy (some a) true = some (0, some b) ∧ Shows b m d := by
  have h1 : CMem.getRange a.digest 0 a.size = some d := ha.data
  have hsz : a.size = d.length := ha.length
  have h2 := ha.printable
  simp only [printableOf] at h2
  have e1 : CMem.store (List.replicate 64 none) 0 d = some (d.map some ++ (List.replicate 64 none).drop d.length) := store_front _ _ (by rw [List.length_replicate]; exact hd)
  have h0 : 0 ∉ (if m = .md5 then ([77, 68, 53, 61] : Bytes) else [83, 72, 65, 61]) ++ hex d := by
    simp only [List.mem_append, not_or]
    exact ⟨by split <;> decide, Str.hex_no_nul d⟩
  have hlen : ((if m = .md5 then ([77, 68, 53, 61] : Bytes) else [83, 72, 65, 61]) ++ hex d).length ≤ 132 := by
    rw [List.length_append, Str.hex_length]; split <;> simp <;> omega
  obtain ⟨p, e2, hp⟩ := C37_strlcpy _ (List.replicate 256 none) 256 h0 (by omega) (by rw [List.length_replicate]; exact Nat.le_refl _)
  rw [List.take_of_length_le (by omega)] at hp
  refine ⟨⟨d.map some ++ (List.replicate 64 none).drop d.length, p, a.method, a.size⟩, by simp only [copy, h1, Option.bind_eq_bind, Option.bind_some, e1, h2, e2], ha.type, ha.length, ?_, str_stored hp⟩
  show CMem.getRange _ 0 a.size = some d
  rw [hsz, Buffer.getRange_at _ _ _ _ (by omega)]; simp

/-- HashIdFromName knows exactly the names that HashNameFromId gives, and they are each other's inverse. -/
theorem C115_names (s : Bytes) (m : Method) (hm : m ≠ .none) : (idFromName (some s) = m ↔ s = nameOf m) ∧ nameFromId m = some (nameOf m) := by
  have hn := name_eq m hm
  refine ⟨?_, by simp only [nameFromId, hn.2, if_false, hn.1]⟩
  constructor
  · intro h
    simp only [idFromName, Logging.cmpSign_id] at h
    split at h
    · rename_i i hi
      rw [List.findIdx?_eq_some_iff_getElem] at hi
      obtain ⟨hlt, h1, _⟩ := hi
      have hs : s = names[i] := by simpa using h1
      have : ∀ i (h : i < names.length), names[i] = nameOf (ofId i) := by decide
      rw [hs, this i hlt, h]
    · exact absurd h.symm hm
  · rintro rfl
    have : ∀ m ∈ methods, idFromName (some (nameOf m)) = m := by decide
    exact this m (by cases m <;> first | exact absurd rfl hm | decide)

/-! ## C116: keys -/

theorem bn2bin_ok (n : Nat) (b : List (Option UInt8)) (h : (bnBytes n).length ≤ b.length) : bn2bin (some n) b = some ((bnBytes n).map some ++ b.drop (bnBytes n).length, (bnBytes n).length) := by
  simp only [bn2bin, store_front _ _ h, Option.bind_eq_bind, Option.bind_some]

theorem keyData_ok (n e : Nat) : keyData (some n) (some e) (max (bnLen (some n)) (bnLen (some e))) = some (bnBytes n ++ bnBytes e) := by
  have h1 : (bnBytes n).length ≤ max (bnLen (some n)) (bnLen (some e)) := by simp only [bnLen]; omega
  have h2 : (bnBytes e).length ≤ max (bnLen (some n)) (bnLen (some e)) := by simp only [bnLen]; omega
  generalize max (bnLen (some n)) (bnLen (some e)) = k at *
  simp only [keyData, bn2bin_ok n (List.replicate k none) (by rw [List.length_replicate]; exact h1), Option.bind_eq_bind, Option.bind_some, h1, if_true, update_ok, List.nil_append]
  rw [bn2bin_ok e _ (by simp; omega)]
  simp only [Option.bind_some, h2, if_true, update_ok]

/-- HashNewFromKey and HashPubKey give the digest of the key's modulus followed by its exponent, as big-endian bytes, whichever is longer. -/
theorem C116_keys (L : Lib) (hA : Assumed L) (m : Method) (f : Bytes → Bytes) (h : Has L m f) (n e : Nat) (hne : n ≠ 0 ∨ e ≠ 0) (digest : List (Option UInt8)) (hd : digest.length = 65) :
    (∃ o, newFromKey L (some (some n, some e)) m = some (some o) ∧ Shows o m (f (bnBytes n ++ bnBytes e))) ∧ hashPubKey L (some n) (some e) digest m = some (padded (f (bnBytes n ++ bnBytes e))) := by
  obtain ⟨hl, hm, hs⟩ := has_length hA h
  obtain ⟨o, eo, ho⟩ := finish_shows hA h (bnBytes n ++ bnBytes e)
  obtain ⟨h1, h2, h3, h4⟩ := h
  have hn := name_eq m h1
  have hdg : digestFromId L m = some f := by simp only [digestFromId, nameFromId, hn.2, if_false, hn.1, h2]
  have hpos : ∀ k : Nat, k ≠ 0 → (bnBytes k).length ≠ 0 := by intro k hk; rw [bnBytes]; simp [hk]
  have hb : ¬max (bnLen (some n)) (bnLen (some e)) = 0 := by
    simp only [bnLen]
    rcases hne with h | h
    · have := hpos n h; omega
    · have := hpos e h; omega
  constructor
  · refine ⟨o, ?_, ho⟩
    simp only [newFromKey, hn.1, hn.2, hb, if_false, Option.bind_eq_bind, Option.bind_some, h2, h3, h4, if_true, keyData_ok, eo]
  · simp only [hashPubKey, hm.2.1, if_false, memset_digest digest hd, Option.bind_eq_bind, Option.bind_some, hdg, h3, h4, if_true, hb, keyData_ok]
    exact final_ok (by rw [hl]; exact hs)

/-- The bytes are those of the number: most significant first, without leading zeros. -/
theorem C116_bytes (n : Nat) : (bnBytes n).foldl (fun a b => 256 * a + b.toNat) 0 = n ∧ (bnBytes n).head? ≠ some 0 := by
  induction n using Nat.strongRecOn with
  | ind n ih =>
    rw [bnBytes]
    split
    · rename_i h; subst h; simp
    · rename_i h
      obtain ⟨h1, h2⟩ := ih (n / 256) (by omega)
      constructor
      · rw [List.foldl_append, h1]
        simp only [List.foldl_cons, List.foldl_nil, UInt8.toNat_ofNat']
        omega
      · by_cases h3 : n / 256 = 0
        · rw [h3, bnBytes]
          simp only [dite_true, List.nil_append, List.head?_cons, ne_eq, Option.some.injEq]
          intro h4
          have := congrArg UInt8.toNat h4
          simp only [UInt8.toNat_ofNat', UInt8.toNat_zero] at this
          omega
        · have : bnBytes (n / 256) ≠ [] := by rw [bnBytes]; simp [h3]
          obtain ⟨a, t, ht⟩ := List.exists_cons_of_ne_nil this
          rw [ht] at h2 ⊢; simpa using h2

/-! ## The hypotheses can be met -/

/-- A library with a toy digest of 16 bytes as md5: the length of the data. -/
def toy : Lib := ⟨fun n => if n = [109, 100, 53] then some fun x => UInt8.ofNat x.length :: List.replicate 15 7 else none, true, true⟩
theorem toy_assumed : Assumed toy := by
  constructor
  · intro f h x; simp only [toy, if_true, Option.some.injEq] at h; subst h; simp
  all_goals simp [toy]
theorem toy_has : Has toy .md5 (fun x => UInt8.ofNat x.length :: List.replicate 15 7) := ⟨by decide, rfl, rfl, rfl⟩

example : ∃ o, new toy (some [some 1, some 2, none]) 2 .md5 = some (some o) ∧ Shows o .md5 (2 :: List.replicate 15 7) := C114_hashNew toy toy_assumed .md5 _ toy_has [1, 2] (by decide) [none]
example : ∃ o, newFromDescriptor toy 3 [1, 2, 3] [.got 1, .got 5, .got 1, .got 0] .md5 = some (.done (some o)) ∧ Shows o .md5 (3 :: List.replicate 15 7) := by
  rcases C114_descriptor_partial toy toy_assumed .md5 _ toy_has 3 (by decide) [1, 2, 3] [.got 1, .got 5, .got 1, .got 0] (by intro e he; simp at he; rcases he with h | h | h | h <;> exact ⟨_, h⟩) with ⟨_, h⟩ | h
  · simp at h
  · exact h
example : (∃ o, newFromKey toy (some (some 65537, some 3)) .md5 = some (some o) ∧ Shows o .md5 (4 :: List.replicate 15 7)) := by
  have := (C116_keys toy toy_assumed .md5 _ toy_has 65537 3 (by decide) (List.replicate 65 none) List.length_replicate).1
  have e : (bnBytes 65537 ++ bnBytes 3).length = 4 := by simp [bnBytes]
  simpa [e] using this

/-! ## Findings -/

/-- When `read` fails (or is interrupted by a signal), HashNewFromDescriptor passes its -1 on as the number of bytes to hash: memory far beyond the 1024-byte buffer is read. -/
theorem C114_read_error_overread_negated (L : Lib) (m : Method) (f : Bytes → Bytes) (h : Has L m f) (fd : Int) (hfd : 0 ≤ fd) (rest : Bytes) (s : List Io.Ev) :
    newFromDescriptor L fd rest (.err :: s) m = none ∧ newFromDescriptor L fd rest (.eintr :: s) m = none := by
  obtain ⟨h1, h2, h3, h4⟩ := h
  have hn := name_eq m h1
  have hdg : digestFromId L m = some f := by simp only [digestFromId, nameFromId, hn.2, if_false, hn.1, h2]
  have hfd' : ¬fd < 0 := by omega
  have hu : update [] (List.replicate 1024 none) sizeMax = none := by
    unfold update
    rw [if_neg (by rw [List.length_replicate]; unfold sizeMax; omega)]
  constructor <;> simp only [newFromDescriptor, hfd', hn.2, if_false, hdg, h3, h4, if_true, fdLoop, hu, Option.bind_eq_bind, Option.bind_none]

/-- When reading the file fails in the middle, HashFile stores the digest of the part read so far, and the caller cannot tell. -/
theorem C114_file_read_error_negated (L : Lib) (hA : Assumed L) (m : Method) (f : Bytes → Bytes) (h : Has L m f) (a b : Bytes) (ha : a.length = 1024) (digest : List (Option UInt8)) (hd : digest.length = 65) :
    hashFile L (some (a ++ b)) [.got 1024, .err] digest m = hashFile L (some a) [.got 1024, .got 0] digest m := by
  obtain ⟨hl, hne, hs⟩ := has_length hA h
  obtain ⟨h1, h2, h3, h4⟩ := h
  have hn := name_eq m h1
  have hdg : digestFromId L m = some f := by simp only [digestFromId, nameFromId, hn.2, if_false, hn.1, h2]
  have r1 : Io.readN 1024 1024 (a ++ b) = 1024 := by simp [Io.readN, ha]
  have r2 : Io.readN 1024 1024 a = 1024 := by simp [Io.readN, ha]
  have r3 : Io.readN 0 1024 [] = 0 := by simp [Io.readN]
  have t1 : (a ++ b).take 1024 = a := by rw [← ha, List.take_left]
  have t2 : a.take 1024 = a := by rw [← ha, List.take_length]
  have t3 : a.drop 1024 = [] := by rw [← ha, List.drop_length]
  have hst := store_chunk a (by omega)
  have hu := update_ok [] a ((List.replicate 1024 none).drop a.length)
  rw [ha] at hu hst
  have hst0 := store_chunk [] (by simp)
  simp only [hashFile, memset_digest digest hd, Option.bind_eq_bind, Option.bind_some, hdg, h3, h4, if_true, streamLoop, r1, r2, t1, t2, t3, hst, hu, r3, List.take_nil, hst0, ne_eq, not_true_eq_false,
    if_false, show ¬((1024 : Nat) = 0) by decide, not_false_eq_true]

/-- A file that cannot be opened has the digest of zeros, so two such files "match". -/
theorem C114_unreadable_files_match_negated (L : Lib) (d : List (Option UInt8)) (hd : d.length = 65) :
    hashFile L none [] d .sha256 = some (.done ((List.replicate 65 0).map some)) ∧ hashesMatch (List.replicate 65 0) (List.replicate 65 0) .sha256 = true := by
  refine ⟨?_, by decide⟩
  simp only [hashFile, memset_digest d hd, Option.bind_eq_bind, Option.bind_some, List.map_replicate]

end Hash
