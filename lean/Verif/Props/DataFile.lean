import Verif.Model.DataFile
import Verif.Spec.DataFile
import Verif.Spec.Json
import Verif.Props.Env
import Verif.Props.FileCopy
import Verif.Props.Csv
import Verif.Props.Io
import Verif.Props.JsonOps
import Verif.Props.JsonText
import Verif.Props.JsonLoose
import Verif.Props.Yaml
import Verif.Props.Path
import Verif.Props.StrCompare
/-! # C123 (ENV files), C124 (CSV files), C125 (data files of any kind) -/

namespace DataFile
open Json JsonSpec DataFileSpec EnvSpec TrimSpec
open FileCopy (Buf cfReadLine BufOk)

/-! ## ENV files -/

theorem within_all {max : Nat} {ls : List Bytes} : within max ls = ls ↔ (ls.map List.length).sum ≤ max := by
  induction ls generalizing max with
  | nil => simp [within]
  | cons l ls ih =>
    rw [within]
    split
    · simp only [List.cons.injEq, true_and, ih, List.map_cons, List.sum_cons]; omega
    · simp; omega

theorem holds_of_take {buf : List (Option UInt8)} {l : Bytes} (h : buf.take (l.length + 1) = (l ++ [0]).map some) : StrSpec.HoldsStr buf (cut l) :=
  CMem.holds_of_str (FileCopy.str_of_take h)

theorem assignment_unique {s a b a' b' : Bytes} (h : Assignment s a b) (h' : Assignment s a' b') : a' = a ∧ b' = b := by
  have e1 := Env.assignment_split _ a b h.1 h.2.1
  have e2 := Env.assignment_split _ a' b' h'.1 h'.2.1
  have ha : a' = a := by rw [← e1, ← e2]
  subst ha
  refine ⟨rfl, ?_⟩
  have := h.1.symm.trans h'.1
  exact (List.append_cancel_left this).symm

/-- What a line does to the object. -/
def effect (m : Bytes → Option Doc) (m' : Bytes → Option Doc) (line : Bytes) : Prop :=
  (∀ k v, Defines line k v → m' = fun k' => if k' = k then some (.string v) else m k') ∧ ((∀ k v, ¬ Defines line k v) → m' = m)

theorem defines_unique {line k v k' v' : Bytes} (h : Defines line k v) (h' : Defines line k' v') : k' = k ∧ v' = v := by
  obtain ⟨a, b, h1, rfl, h2⟩ := h
  obtain ⟨a', b', h1', rfl, h2'⟩ := h'
  obtain ⟨rfl, rfl⟩ := assignment_unique h1 h1'
  rw [h2] at h2'
  cases h2'
  exact ⟨rfl, rfl⟩

/-- The lines of a stream: `ls`, each ended by a newline, then `last`. -/
def text (ls : List Bytes) (last : Bytes) : Bytes := (ls.map (· ++ [10])).flatten ++ last

/-- One line of the loop. -/
theorem line_ok {b : List (Option UInt8)} {l : Bytes} (h : StrSpec.HoldsStr b l) (hd : ¬ Dangling l) (kids : List Elem) (hn : (keys kids).Nodup) :
    (Env.parseEnvLine b = some none ∧ ∀ k v, ¬ Defines l k v) ∨
    ∃ m' k v kids', Env.parseEnvLine b = some (some (m', k, v)) ∧ store kids m' k v = some kids' ∧ (keys kids').Nodup ∧
      ∃ key value, Defines l key value ∧ ∀ k', members kids' k' = if k' = key then some (.string value) else members kids k' := by
  obtain ⟨h1, h2, h3⟩ := C53_line_partial b l h
  by_cases ha : ∃ a c, Assignment l a c
  · obtain ⟨a, c, hac⟩ := ha
    cases hv : EnvSpec.value (trim space c) with
    | text u =>
      obtain ⟨m', k, v, e1, e2, e3⟩ := h3 a c u hac hv
      refine Or.inr ⟨m', k, v, appendElement kids (trim space a) (stringCreate u), e1, ?_, nodup_append _ _ hn, trim space a, u, ⟨a, c, hac, rfl, hv⟩, ?_⟩
      · rw [store, CMem.str_holds e2, CMem.str_holds e3]; rfl
      · intro k'; rw [members_append _ _ hn]; rfl
    | badQuote =>
      refine Or.inl ⟨h2 a c hac hv, ?_⟩
      rintro k v ⟨a', c', h', _, hv'⟩
      obtain ⟨rfl, rfl⟩ := assignment_unique hac h'
      rw [hv] at hv'; cases hv'
    | dangling => exact absurd ⟨a, c, hac, hv⟩ hd
  · exact Or.inl ⟨h1 ha, fun k v ⟨a, c, h', _⟩ => ha ⟨a, c, h'⟩⟩

theorem lastDefines_cons {l : Bytes} {ls : List Bytes} {k v : Bytes} :
    LastDefines (l :: ls) k v ↔ LastDefines ls k v ∨ (Defines l k v ∧ ∀ x ∈ ls, ∀ w, ¬ Defines x k w) := by
  constructor
  · rintro ⟨before, line, after, h, h1, h2⟩
    cases before with
    | nil => simp at h; obtain ⟨rfl, rfl⟩ := h; exact Or.inr ⟨h1, h2⟩
    | cons x before => simp at h; exact Or.inl ⟨before, line, after, h.2, h1, h2⟩
  · rintro (⟨before, line, after, rfl, h1, h2⟩ | ⟨h1, h2⟩)
    · exact ⟨l :: before, line, after, rfl, h1, h2⟩
    · exact ⟨[], l, ls, rfl, h1, h2⟩

theorem lastDefines_some {ls : List Bytes} {k : Bytes} (x : Bytes) (hx : x ∈ ls) (w : Bytes) (h : Defines x k w) : ∃ v, LastDefines ls k v := by
  induction ls generalizing x w with
  | nil => simp at hx
  | cons l ls ih =>
    by_cases hr : ∃ y ∈ ls, ∃ w, Defines y k w
    · obtain ⟨y, hy, w, hw⟩ := hr
      obtain ⟨v, hv⟩ := ih y hy w hw
      exact ⟨v, lastDefines_cons.2 (Or.inl hv)⟩
    · rcases List.mem_cons.1 hx with rfl | hx
      · exact ⟨w, lastDefines_cons.2 (Or.inr ⟨h, fun y hy w' hw' => hr ⟨y, hy, w', hw'⟩⟩)⟩
      · exact absurd ⟨x, hx, w, h⟩ hr

/-- What an object holds after lines `ls` were stored in one holding `m`. -/
def After (m : Bytes → Option Doc) (ls : List Bytes) (m' : Bytes → Option Doc) : Prop :=
  ∀ k, (∀ v, LastDefines ls k v → m' k = some (.string v)) ∧ ((∀ l ∈ ls, ∀ v, ¬ Defines l k v) → m' k = m k)

theorem after_nil (m : Bytes → Option Doc) : After m [] m := fun k => ⟨fun v ⟨b, l, a, h, _⟩ => by simp at h, fun _ => rfl⟩

theorem after_skip {m m' : Bytes → Option Doc} {l : Bytes} {ls : List Bytes} (h : ∀ k v, ¬ Defines l k v) (ha : After m ls m') : After m (l :: ls) m' := by
  intro k
  refine ⟨fun v hv => ?_, fun hn => (ha k).2 fun x hx => hn x (List.mem_cons_of_mem _ hx)⟩
  rcases lastDefines_cons.1 hv with hv | ⟨hv, _⟩
  · exact (ha k).1 v hv
  · exact absurd hv (h k v)

theorem after_cons {m m1 m' : Bytes → Option Doc} {l : Bytes} {ls : List Bytes} {key value : Bytes} (h : Defines l key value)
    (h1 : ∀ k', m1 k' = if k' = key then some (.string value) else m k') (ha : After m1 ls m') : After m (l :: ls) m' := by
  intro k
  refine ⟨fun v hv => ?_, fun hn => ?_⟩
  · rcases lastDefines_cons.1 hv with hv | ⟨hv, hr⟩
    · exact (ha k).1 v hv
    · obtain ⟨rfl, rfl⟩ := defines_unique h hv
      rw [(ha k).2 hr, h1, if_pos rfl]
  · rw [(ha k).2 fun x hx => hn x (List.mem_cons_of_mem _ hx), h1, if_neg]
    rintro rfl
    exact hn l (by simp) value h

/-- The lines the loop meets. -/
def seen (bad : Bool) (ls : List Bytes) (last : Bytes) : List Bytes := (ls ++ (if last = [] ∨ bad then [] else [last])).map cut

theorem envLoop_ok (bad : Bool) (max : Nat) (last : Bytes) (hlast : 10 ∉ last) : ∀ (ls : List Bytes) (fuel : Nat) (buf : Buf) (count : Nat) (kids : List Elem),
    BufOk buf → ls.length + 2 ≤ fuel → (∀ l ∈ ls, 10 ∉ l) → count ≤ max → (keys kids).Nodup → (∀ l ∈ within (max - count) (seen bad ls last), ¬ Dangling l) →
    ∃ kids' eof count', envLoop bad max fuel buf (text ls last) count kids = some (kids', eof, count') ∧ (keys kids').Nodup ∧
      (count' ≤ max ↔ within (max - count) (seen bad ls last) = seen bad ls last) ∧ (count' ≤ max → eof = !bad) ∧
      After (members kids) (within (max - count) (seen bad ls last)) (members kids') := by
  intro ls
  induction ls with
  | nil =>
    intro fuel buf count kids hb hf _ hc hn hd
    obtain ⟨fuel, rfl⟩ : ∃ k, fuel = k + 2 := ⟨fuel - 2, by simp at hf; omega⟩
    simp only [text, List.map_nil, List.flatten_nil, List.nil_append]
    rw [envLoop]
    cases bad with
    | true =>
      obtain ⟨b, n, h⟩ := FileCopy.cfReadLine_bad last hb hlast
      rw [h]
      exact ⟨kids, false, count, rfl, hn, by simp [seen, within, hc], fun _ => rfl, by simp [seen, within]; exact after_nil _⟩
    | false =>
      by_cases hl : last = []
      · subst hl
        obtain ⟨b, n, h⟩ := FileCopy.cfReadLine_eof buf
        rw [h]
        exact ⟨kids, true, count, rfl, hn, by simp [seen, within, hc], fun _ => rfl, by simp [seen, within]; exact after_nil _⟩
      · obtain ⟨b, n, h1, h2, h3⟩ := FileCopy.cfReadLine_last hb last hlast hl
        have hseen : seen false [] last = [cut last] := by simp [seen, hl]
        rw [hseen] at hd ⊢
        have hh := holds_of_take h3
        rw [h1]
        simp only [CMem.str_holds hh]
        by_cases hm : count + (cut last).length > max
        · rw [if_pos hm]
          have hw : within (max - count) [cut last] = [] := by rw [within, if_neg (by omega)]
          rw [hw]
          exact ⟨kids, true, _, rfl, hn, by constructor; omega; simp, by omega, after_nil _⟩
        · rw [if_neg hm]
          have hw : within (max - count) [cut last] = [cut last] := by rw [within, if_pos (by omega)]; rfl
          rw [hw] at hd ⊢
          obtain ⟨b', n', he⟩ := FileCopy.cfReadLine_eof (some b, n)
          rcases line_ok hh (hd _ (by simp)) kids hn with ⟨e1, e2⟩ | ⟨m', k, v, kids', e1, e2, e3, key, value, e4, e5⟩
          · rw [e1]
            simp only
            rw [envLoop, he]
            exact ⟨kids, true, _, rfl, hn, by simp; omega, fun _ => rfl, after_skip e2 (after_nil _)⟩
          · rw [e1]
            simp only [e2]
            rw [envLoop, he]
            exact ⟨kids', true, _, rfl, e3, by simp; omega, fun _ => rfl, after_cons e4 e5 (after_nil _)⟩
  | cons l ls ih =>
    intro fuel buf count kids hb hf hls hc hn hd
    obtain ⟨fuel, rfl⟩ : ∃ k, fuel = k + 1 := ⟨fuel - 1, by simp at hf; omega⟩
    obtain ⟨b, n, h1, h2, h3⟩ := FileCopy.cfReadLine_line (bad := bad) hb l (text ls last) (hls l (by simp))
    have hseen : seen bad (l :: ls) last = cut l :: seen bad ls last := by simp [seen]
    have htext : text (l :: ls) last = l ++ 10 :: text ls last := by simp [text]
    rw [hseen] at hd ⊢
    rw [htext, envLoop, h1]
    have hh := holds_of_take h3
    simp only [CMem.str_holds hh]
    by_cases hm : count + (cut l).length > max
    · rw [if_pos hm]
      have hw : within (max - count) (cut l :: seen bad ls last) = [] := by rw [within, if_neg (by omega)]
      rw [hw]
      exact ⟨kids, false, _, rfl, hn, by constructor; omega; simp, by omega, after_nil _⟩
    · rw [if_neg hm]
      have hw : within (max - count) (cut l :: seen bad ls last) = cut l :: within (max - (count + (cut l).length)) (seen bad ls last) := by
        rw [within, if_pos (by omega), Nat.sub_add_eq]
      rw [hw] at hd ⊢
      have hb' : BufOk (some b, n) := by intro m hm; cases hm; exact h2
      have hf' : ls.length + 2 ≤ fuel := by simp at hf; omega
      rcases line_ok hh (hd _ (by simp)) kids hn with ⟨e1, e2⟩ | ⟨m', k, v, kids', e1, e2, e3, key, value, e4, e5⟩
      · rw [e1]
        simp only
        obtain ⟨k1, eof, c1, g1, g2, g3, g4, g5⟩ := ih fuel (some b, n) (count + (cut l).length) kids hb' hf' (fun x hx => hls x (by simp [hx])) (by omega) hn
          (fun x hx => hd x (by simp [hx]))
        exact ⟨k1, eof, c1, g1, g2, by rw [g3]; simp, g4, after_skip e2 g5⟩
      · rw [e1]
        simp only [e2]
        obtain ⟨k1, eof, c1, g1, g2, g3, g4, g5⟩ := ih fuel (some b, n) (count + (cut l).length) kids' hb' hf' (fun x hx => hls x (by simp [hx])) (by omega) e3
          (fun x hx => hd x (by simp [hx]))
        exact ⟨k1, eof, c1, g1, g2, by rw [g3]; simp, g4, after_cons e4 e5 g5⟩

theorem text_length (ls : List Bytes) (last : Bytes) : ls.length ≤ (text ls last).length := by
  induction ls with
  | nil => simp
  | cons l ls ih => simp [text] at ih ⊢; omega

end DataFile

open DataFile DataFileSpec EnvSpec Json JsonSpec in
/-- C123, partial. `JsonParseEnvFile` on any file: the newline-terminated lines `ls` followed by `last` (an unterminated last line, or nothing). Let `lines` be all
its lines as C strings - without the unterminated one if reading fails. If reading fails before the limit of `max` bytes (newlines not counted) is passed, the
result is a failure; otherwise an object in which a name is bound to the value the last line about it (among the first lines that together have at most
`max` bytes) gives it, and nothing else is bound. No access is out of bounds. Missing: lines whose value ends in a lone backslash (see C53). -/
theorem C123_env_file_partial (bad : Bool) (max : Nat) (ls : List Bytes) (last : Bytes) (hls : ∀ l ∈ ls, 10 ∉ l) (hlast : 10 ∉ last) (lines : List Bytes)
    (hlines : lines = (ls ++ (if last = [] ∨ bad then [] else [last])).map cut) (hd : ∀ l ∈ within max lines, ¬ Dangling l) :
    (bad = true ∧ within max lines = lines → parseEnvFile (some ⟨(ls.map (· ++ [10])).flatten ++ last, bad⟩) max = some none) ∧
    (¬ (bad = true ∧ within max lines = lines) →
      ∃ e m, parseEnvFile (some ⟨(ls.map (· ++ [10])).flatten ++ last, bad⟩) max = some (some e) ∧ doc e = .object m ∧
        (∀ k v, LastDefines (within max lines) k v → m k = some (.string v)) ∧
        (∀ k, (∀ l ∈ within max lines, ∀ v, ¬ Defines l k v) → m k = none)) := by
  subst hlines
  obtain ⟨kids, eof, count, g1, g2, g3, g4, g5⟩ := envLoop_ok bad max last hlast ls ((text ls last).length + 2) (some (List.replicate 4096 none), 4096) 0 []
    (by intro m hm; rw [← Option.some.inj hm, List.length_replicate]; exact Nat.le_refl _) (by have := text_length ls last; omega) hls (by omega) List.nodup_nil (by simpa [seen] using hd)
  rw [Nat.sub_zero] at g3 g5
  have he : parseEnvFile (some ⟨(ls.map (· ++ [10])).flatten ++ last, bad⟩) max =
      if !eof && decide (count ≤ max) then some none else some (some (.cont none .object kids)) := by
    have : (ls.map (· ++ [10])).flatten ++ last = text ls last := rfl
    rw [this, parseEnvFile]
    simp only [g1]
  rw [he]
  constructor
  · rintro ⟨hb, hw⟩
    have hc := g3.2 hw
    have := g4 hc
    subst hb
    simp [this, hc]
  · intro hne
    refine ⟨.cont none .object kids, members kids, ?_, rfl, fun k v h => (g5 k).1 v h, fun k h => (g5 k).2 h⟩
    rw [if_neg]
    simp only [Bool.and_eq_true, Bool.not_eq_true', decide_eq_true_eq, not_and]
    intro h1 h2
    have := g4 h2
    exact hne ⟨(by rw [h1] at this; cases bad <;> first | rfl | cases this), g3.1 h2⟩

/-- A file that cannot be opened gives a failure. -/
theorem DataFile.C123_no_file (max : Nat) : DataFile.parseEnvFile none max = some none := rfl

-- `A=1`, `# A=x`, `B="a b"`, `A=2`: the last definition of A counts; with a limit of 3 bytes only the first is read
example : (DataFile.parseEnvFile (some ⟨[65, 61, 49, 10, 35, 65, 61, 120, 10, 66, 61, 34, 97, 32, 98, 34, 10, 65, 61, 50], false⟩) 100).map
      (fun r => match r with | some (.cont _ .object ks) => ks.map (fun e => match e with | .prim (some n) _ v => (n, v) | _ => ([], [])) | _ => []) =
      some [([66], [97, 32, 98]), ([65], [50])] := by decide +kernel

example : ∀ v, ¬ DataFileSpec.Dangling ([66, 61, 34, 97, 32, 98, 34] : List UInt8) ∧ (DataFileSpec.Defines [66, 61, 34, 97, 32, 98, 34] [66] v ↔ v = [97, 32, 98]) := by
  intro v
  have h : EnvSpec.Assignment [66, 61, 34, 97, 32, 98, 34] [66] [34, 97, 32, 98, 34] := ⟨by decide, by decide, by decide, by decide⟩
  have hv : EnvSpec.value (TrimSpec.trim TrimSpec.space [34, 97, 32, 98, 34]) = .text [97, 32, 98] := by decide
  refine ⟨?_, ?_, ?_⟩
  · rintro ⟨a, b, h1, h2⟩
    obtain ⟨rfl, rfl⟩ := DataFile.assignment_unique h h1
    rw [hv] at h2; cases h2
  · rintro ⟨a, b, h1, _, h2⟩
    obtain ⟨rfl, rfl⟩ := DataFile.assignment_unique h h1
    rw [hv] at h2; cases h2; rfl
  · rintro rfl
    exact ⟨_, _, h, by decide, hv⟩

/-! ## CSV files -/

namespace DataFile
open Json JsonSpec DataFileSpec CsvParser

theorem last_two (xs : Bytes) (c : UInt8) : [13, 10] <:+ xs ++ [c] ↔ xs.getLast? = some 13 ∧ c = 10 := by
  constructor
  · rintro ⟨t, ht⟩
    have : (t ++ [13]) ++ [10] = xs ++ [c] := by simpa using ht
    obtain ⟨h1, h2⟩ := List.append_inj' this rfl
    rw [← h1]; simp at h2 ⊢; exact h2.symm
  · rintro ⟨h, rfl⟩
    obtain ⟨t, rfl⟩ : ∃ t, xs = t ++ [13] := by
      rcases List.eq_nil_or_concat xs with rfl | ⟨t, x, rfl⟩
      · simp at h
      · simp at h; exact ⟨t, by simp [h]⟩
    exact ⟨t, by simp⟩

theorem prefix_snoc {p xs : Bytes} {c : UInt8} (h : p <+: xs ++ [c]) : p = xs ++ [c] ∨ p <+: xs := by
  obtain ⟨t, ht⟩ := h
  rcases List.eq_nil_or_concat t with rfl | ⟨t', x, rfl⟩
  · left; simpa using ht
  · right
    have : (p ++ t') ++ [x] = xs ++ [c] := by simpa using ht
    exact ⟨t', (List.append_inj' this rfl).1⟩

theorem lineLoop_closed : ∀ (s : Bytes) {w : Writer.W} {xs : Bytes} (prev : UInt8) (q : Bool), Writer.WRep w xs → (prev = 13 ↔ xs.getLast? = some 13) →
    (q = true ↔ xs.count 34 % 2 = 1) → (∀ p, p <+: xs → ¬ Closed p) →
    ∃ w' a b, lineLoop w prev q s = some (w', b) ∧ s = a ++ b ∧ Writer.WRep w' (xs ++ a) ∧
      ((Closed (xs ++ a) ∧ ∀ p, p <+: xs ++ a → p ≠ xs ++ a → ¬ Closed p) ∨ (b = [] ∧ ∀ p, p <+: xs ++ a → ¬ Closed p)) := by
  intro s
  induction s with
  | nil => intro w xs prev q hw _ _ hp; exact ⟨w, [], [], rfl, rfl, by simpa using hw, Or.inr ⟨rfl, by simpa using hp⟩⟩
  | cons c s ih =>
    intro w xs prev q hw h1 h2 hp
    obtain ⟨w1, b1, b2⟩ := Writer.writeChar_ok hw c
    have hcount : (xs ++ [c]).count 34 = xs.count 34 + if c = 34 then 1 else 0 := by
      rw [List.count_append, List.count_singleton]; simp
    have hgo : ∀ q', ¬ Closed (xs ++ [c]) → (q' = true ↔ (xs ++ [c]).count 34 % 2 = 1) →
        ∃ w' a b, lineLoop w1 c q' s = some (w', b) ∧ c :: s = a ++ b ∧ Writer.WRep w' (xs ++ a) ∧
      ((Closed (xs ++ a) ∧ ∀ p, p <+: xs ++ a → p ≠ xs ++ a → ¬ Closed p) ∨ (b = [] ∧ ∀ p, p <+: xs ++ a → ¬ Closed p)) := by
      intro q' hnc hq'
      obtain ⟨w', a, b, e1, e2, e3, e4⟩ := ih c q' b2 (by simp) hq' (by
        intro p hpre
        rcases prefix_snoc hpre with rfl | hpre
        · exact hnc
        · exact hp p hpre)
      refine ⟨w', c :: a, b, e1, by rw [e2]; rfl, by simpa using e3, by simpa using e4⟩
    rw [lineLoop, b1]
    simp only [Option.bind_eq_bind, Option.bind_some]
    by_cases hc : c = 34
    · rw [if_pos hc]
      apply hgo
      · rintro ⟨hs, _⟩
        have := ((last_two xs c).1 hs).2
        rw [hc] at this; revert this; decide
      · rw [hcount, if_pos hc]
        cases q <;> simp at h2 ⊢ <;> omega
    · rw [if_neg hc]
      have hcl : Closed (xs ++ [c]) ↔ (!q && c == 10 && prev == 13) = true := by
        rw [Closed, last_two, ← h1, hcount, if_neg hc, Nat.add_zero]
        cases q <;> simp at h2 ⊢
        · constructor
          · rintro ⟨⟨a, b⟩, _⟩; exact ⟨b, a⟩
          · rintro ⟨a, b⟩; exact ⟨⟨b, a⟩, h2⟩
        · intro _ _; omega
      by_cases hend : (!q && c == 10 && prev == 13) = true
      · rw [if_pos hend]
        refine ⟨w1, [c], s, rfl, rfl, b2, Or.inl ⟨hcl.2 hend, ?_⟩⟩
        intro p hpre hne
        rcases prefix_snoc hpre with rfl | hpre
        · exact absurd rfl hne
        · exact hp p hpre
      · rw [if_neg hend]
        apply hgo
        · exact fun h => hend (hcl.1 h)
        · rw [hcount, if_neg hc]; exact h2

theorem closed_ne {l : Bytes} (h : Closed l) : l ≠ [] := by
  rintro rfl
  have := h.1.length_le
  simp at this

theorem getLineNext_record (c : UInt8) (s : Bytes) :
    ∃ a b, getLineNext (c :: s) = some (some (a ++ [0]), b) ∧ c :: s = a ++ b ∧ a ≠ [] ∧
      ((Closed a ∧ ∀ p, p <+: a → p ≠ a → ¬ Closed p) ∨ (b = [] ∧ ∀ p, p <+: a → ¬ Closed p)) := by
  obtain ⟨w, a, b, h1, h2, h3, h4⟩ := lineLoop_closed (c :: s) 0 false Writer.init_ok (by simp) (by simp) (by
    intro p hp hc
    exact closed_ne hc (List.prefix_nil.1 hp))
  simp only [List.nil_append] at h3 h4
  have ha : a ≠ [] := by
    rcases h4 with ⟨h, _⟩ | ⟨rfl, _⟩
    · exact closed_ne h
    · rintro rfl; simp at h2
  have hn : Writer.length w ≠ 0 := by
    simp only [Writer.length, h3.len]
    exact fun e => ha (List.length_eq_zero_iff.mp e)
  refine ⟨a, b, ?_, h2, ha, h4⟩
  simp only [getLineNext, h1, Option.bind_eq_bind, Option.bind_some, if_neg hn, Writer.dataZ_ok h3]

/-- The records are determined by the file. -/
theorem records_exist : ∀ (n : Nat) (s : Bytes), s.length ≤ n → ∃ ls, Records s ls := by
  intro n
  induction n with
  | zero => intro s h; cases s with
    | nil => exact ⟨[], .nil⟩
    | cons _ _ => simp at h
  | succ n ih =>
    intro s h
    cases s with
    | nil => exact ⟨[], .nil⟩
    | cons c s =>
      obtain ⟨a, b, _, h2, ha, h4⟩ := getLineNext_record c s
      have hl : (c :: s).length = a.length + b.length := by rw [h2]; simp
      have hp := List.length_pos_iff.mpr ha
      rw [h2]
      rcases h4 with ⟨hc, hm⟩ | ⟨rfl, hm⟩
      · obtain ⟨ls, hls⟩ := ih b (by omega)
        exact ⟨_, .cons a b ls hc hm hls⟩
      · exact ⟨[a], by simpa using Records.last a ha hm⟩

/-- The shortest closed beginning is unique. -/
theorem split_unique {a b a' b' : Bytes} (h : a ++ b = a' ++ b') (h1 : Closed a) (h2 : ∀ p, p <+: a → p ≠ a → ¬ Closed p) (h1' : Closed a')
    (h2' : ∀ p, p <+: a' → p ≠ a' → ¬ Closed p) : a = a' := by
  rcases List.append_eq_append_iff.1 h with ⟨t, e, _⟩ | ⟨t, e, _⟩
  · by_cases ht : a = a'
    · exact ht
    · exact absurd h1 (h2' a ⟨t, e.symm⟩ ht)
  · by_cases ht : a' = a
    · exact ht.symm
    · exact absurd h1' (h2 a' ⟨t, e.symm⟩ ht)

theorem getLineNext_of_records {s : Bytes} {ls : List Bytes} (h : Records s ls) :
    (ls = [] ∧ s = [] ∧ getLineNext s = some (none, [])) ∨
    ∃ l ls' rest, ls = l :: ls' ∧ l ≠ [] ∧ Records rest ls' ∧ rest.length < s.length ∧ getLineNext s = some (some (l ++ [0]), rest) ∧ s = l ++ rest := by
  cases h with
  | nil => exact Or.inl ⟨rfl, rfl, getLineNext_nil⟩
  | last _ hne hm =>
    right
    cases s with
    | nil => exact absurd rfl hne
    | cons c s =>
      obtain ⟨a, b, h1, h2, ha, h4⟩ := getLineNext_record c s
      have : b = [] ∧ a = c :: s := by
        rcases h4 with ⟨hc, _⟩ | ⟨rfl, _⟩
        · exact absurd hc (hm a ⟨b, h2.symm⟩)
        · exact ⟨rfl, by simpa using h2.symm⟩
      obtain ⟨rfl, rfl⟩ := this
      exact ⟨_, [], [], rfl, ha, .nil, by simp, h1, by simp⟩
  | cons l rest ls' hc hm hr =>
    right
    have hne := closed_ne hc
    cases hs : l ++ rest with
    | nil => simp at hs; exact absurd hs.1 hne
    | cons c s =>
      obtain ⟨a, b, h1, h2, ha, h4⟩ := getLineNext_record c s
      rw [← hs] at h1 h2
      have : a = l := by
        rcases h4 with ⟨hc', hm'⟩ | ⟨rfl, hm'⟩
        · exact (split_unique h2 hc hm hc' hm').symm
        · exact absurd hc (hm' l ⟨rest, by simpa using h2⟩)
      subst this
      have hb : rest = b := List.append_cancel_left h2
      subst hb
      refine ⟨_, _, _, rfl, ha, hr, ?_, by rw [← hs]; exact h1, hs.symm⟩
      rw [← hs]
      have := List.length_pos_iff.mpr ha
      simp; omega

theorem records_unique : ∀ {s : Bytes} {ls ls' : List Bytes}, Records s ls → Records s ls' → ls = ls' := by
  intro s ls ls' h
  induction h generalizing ls' with
  | nil => intro h'; rcases getLineNext_of_records h' with ⟨rfl, _⟩ | ⟨l, _, r, _, hne, _, hl, _⟩
           · rfl
           · simp at hl
  | last l hne hm =>
    intro h'
    have g := getLineNext_of_records (.last l hne hm)
    rcases g with ⟨h, _⟩ | ⟨l1, x1, r1, e1, e2, e3, e4, e5, e6⟩
    · cases h
    · cases e1
      rcases getLineNext_of_records h' with ⟨_, h, _⟩ | ⟨l2, x2, r2, f1, f2, f3, f4, f5, f6⟩
      · exact absurd h hne
      · rw [e5] at f5
        simp at f5
        obtain ⟨rfl, rfl⟩ := f5
        have : r1 = [] := by simpa using e6
        subst this
        rcases getLineNext_of_records f3 with ⟨rfl, _⟩ | ⟨_, _, _, _, _, _, hl, _⟩
        · exact f1.symm
        · simp at hl
  | cons l rest ls1 hc hm hr ih =>
    intro h'
    have g := getLineNext_of_records (.cons l rest ls1 hc hm hr)
    rcases g with ⟨h, _⟩ | ⟨l1, x1, r1, e1, e2, e3, e4, e5, e6⟩
    · cases h
    · rcases getLineNext_of_records h' with ⟨_, h, _⟩ | ⟨l2, x2, r2, f1, f2, f3, f4, f5, f6⟩
      · exact absurd (List.append_eq_nil_iff.1 h).1 (closed_ne hc)
      · rw [e5] at f5
        simp at f5
        obtain ⟨rfl, rfl⟩ := f5
        cases e1
        have : rest = r1 := List.append_cancel_left e6
        subst this
        rw [f1, ih f3]

/-- The rows of the records that can be taken apart. -/
def rows (ls : List Bytes) : List (List Bytes) := ls.filterMap fun l => (CsvParser.parse l).join

theorem csvLoop_ok (max : Nat) : ∀ (ls : List Bytes) (fuel : Nat) (s : Bytes) (count : Nat) (kids : List Elem), Records s ls → s.length < fuel → count ≤ max →
    (∀ l ∈ within (max - count) (ls.map cut), ∃ r, CsvParser.parse l = some r) →
    ∃ count', csvLoop max fuel s count kids = some (kids ++ (rows (within (max - count) (ls.map cut))).map row, count') ∧
      (count' ≤ max ↔ within (max - count) (ls.map cut) = ls.map cut) := by
  intro ls
  induction ls with
  | nil =>
    intro fuel s count kids hr hf hc _
    obtain ⟨fuel, rfl⟩ : ∃ k, fuel = k + 1 := ⟨fuel - 1, by omega⟩
    rcases getLineNext_of_records hr with ⟨_, rfl, hg⟩ | ⟨l, ls', rest, h, _⟩
    · exact ⟨count, by rw [csvLoop, hg]; simp [rows, within], by simp [within, hc]⟩
    · cases h
  | cons l ls ih =>
    intro fuel s count kids hr hf hc hp
    obtain ⟨fuel, rfl⟩ : ∃ k, fuel = k + 1 := ⟨fuel - 1, by omega⟩
    rcases getLineNext_of_records hr with ⟨h, _⟩ | ⟨l', ls', rest, h, _, hrest, hlen, hg, _⟩
    · cases h
    · cases h
      rw [csvLoop, hg]
      have hstr : CMem.str ((l ++ [0]).map some) = some (cut l) := FileCopy.str_of_take (List.take_of_length_le (by simp))
      simp only [hstr, List.map_cons]
      rw [List.map_cons] at hp
      by_cases hm : count + (cut l).length > max
      · rw [if_pos hm]
        have hw : within (max - count) (cut l :: ls.map cut) = [] := by rw [within, if_neg (by omega)]
        rw [hw]
        exact ⟨count + (cut l).length, by simp [rows], by constructor; omega; simp⟩
      · rw [if_neg hm]
        have hw : within (max - count) (cut l :: ls.map cut) = cut l :: within (max - (count + (cut l).length)) (ls.map cut) := by
          rw [within, if_pos (by omega), Nat.sub_add_eq]
        rw [hw] at hp ⊢
        obtain ⟨r, hr1⟩ := hp (cut l) (by simp)
        rw [hr1]
        cases r with
        | none =>
          obtain ⟨c', g1, g2⟩ := ih fuel rest (count + (cut l).length) kids hrest (by omega) (by omega) (fun x hx => hp x (by simp [hx]))
          exact ⟨c', by simp only [g1]; simp [rows, hr1], by rw [g2]; simp⟩
        | some fs =>
          obtain ⟨c', g1, g2⟩ := ih fuel rest (count + (cut l).length) (kids ++ [row fs]) hrest (by omega) (by omega) (fun x hx => hp x (by simp [hx]))
          exact ⟨c', by simp only [g1]; simp [rows, hr1], by rw [g2]; simp⟩

theorem docs_rows (rs : List (List Bytes)) : docs (rs.map row) = rs.map fun r => .array (r.map .string) := by
  have hs : ∀ r : List Bytes, docs (r.map stringCreate) = r.map .string := by
    intro r
    induction r with
    | nil => rfl
    | cons f r ih => simp [docs, ih, stringCreate, doc]
  induction rs with
  | nil => rfl
  | cons r rs ih => simp [docs, ih, row, doc, hs]

theorem within_subset (max : Nat) (ls : List Bytes) : ∀ l ∈ within max ls, l ∈ ls := by
  induction ls generalizing max with
  | nil => simp [within]
  | cons x ls ih =>
    intro l hl
    rw [within] at hl
    split at hl
    · rcases List.mem_cons.1 hl with rfl | hl
      · simp
      · exact List.mem_cons_of_mem _ (ih _ l hl)
    · simp at hl

theorem records_infix {s : Bytes} {ls : List Bytes} (h : Records s ls) : ∀ l ∈ ls, l <:+: s := by
  induction h with
  | nil => simp
  | last l _ _ => simp
  | cons l rest ls _ _ _ ih =>
    intro x hx
    rcases List.mem_cons.1 hx with rfl | hx
    · exact (List.prefix_append _ _).isInfix
    · exact (ih x hx).trans (List.suffix_append _ _).isInfix

theorem cut_id {l : Bytes} (h : 0 ∉ l) : cut l = l := by
  induction l with
  | nil => rfl
  | cons c l ih =>
    rw [cut, List.takeWhile_cons, if_pos (by simp; rintro rfl; simp at h)]
    exact congrArg _ (ih fun hx => h (List.mem_cons_of_mem _ hx))

theorem cut_prefix (l : Bytes) : cut l <+: l := List.takeWhile_prefix _

end DataFile

open DataFile DataFileSpec Json JsonSpec in
/-- C124, partial. `JsonParseCsvFile` on any file in which no quote is followed by one blank and a separator (see C61): let `lines` be its records as C strings.
If reading fails before the limit of `max` bytes is passed, the result is a failure; otherwise the array of the fields of every record that
`SeqParseCsvString` takes apart, in order, among the first records that together have at most `max` bytes. -/
theorem C124_csv_file_partial (bad : Bool) (max : Nat) (file : Bytes) (records : List Bytes) (hr : Records file records)
    (h : ∀ b ∈ ([32, 9, 10, 13] : List UInt8), ¬ [34, b, 44] <:+: file) :
    (bad = true ∧ within max (records.map cut) = records.map cut → parseCsvFile (some ⟨file, bad⟩) max = some none) ∧
    (¬ (bad = true ∧ within max (records.map cut) = records.map cut) →
      ∃ e, parseCsvFile (some ⟨file, bad⟩) max = some (some e) ∧
        doc e = .array (((within max (records.map cut)).filterMap fun l => (CsvParser.parse l).join).map fun fields => .array (fields.map .string))) := by
  obtain ⟨c, g1, g2⟩ := csvLoop_ok max records (file.length + 1) file 0 [] hr (by omega) (by omega) (by
    intro l hl
    apply C61_csv_parsing_is_memory_safe_partial
    intro b hb hin
    obtain ⟨l', hl', rfl⟩ := List.mem_map.1 (within_subset _ _ l hl)
    exact h b hb ((hin.trans (cut_prefix l').isInfix).trans (records_infix hr l' hl')))
  rw [Nat.sub_zero] at g1 g2
  have he : parseCsvFile (some ⟨file, bad⟩) max = if bad && decide (c ≤ max) then some none else some (some (.cont none .array ((rows (within max (records.map cut))).map row))) := by
    rw [parseCsvFile]
    simp only [g1, List.nil_append]
  rw [he]
  constructor
  · rintro ⟨hb, hw⟩
    simp [hb, g2.2 hw]
  · intro hne
    refine ⟨_, if_neg ?_, by rw [doc, docs_rows]; rfl⟩
    simp only [Bool.and_eq_true, decide_eq_true_eq, not_and]
    exact fun h1 h2 => hne ⟨h1, g2.1 h2⟩

/-- C124. Every file has exactly one list of records. -/
theorem C124_records (file : List UInt8) : ∃ ls, DataFileSpec.Records file ls ∧ ∀ ls', DataFileSpec.Records file ls' → ls' = ls := by
  obtain ⟨ls, h⟩ := DataFile.records_exist _ file (Nat.le_refl _)
  exact ⟨ls, h, fun ls' h' => DataFile.records_unique h' h⟩

namespace DataFile
open Json JsonSpec DataFileSpec CsvText

theorem csvLoop_written (max : Nat) : ∀ (rs : List (List Bytes)) (fuel : Nat) (count : Nat) (kids : List Elem), (∀ r ∈ rs, r ≠ []) →
    (∀ r ∈ rs, ∀ f ∈ r, CsvWriter.okField f) → rs.length < fuel → count + (rs.flatMap fun r => recText r ++ [13, 10]).length ≤ max →
    csvLoop max fuel (rs.flatMap fun r => recText r ++ [13, 10]) count kids =
      some (kids ++ rs.map row, count + (rs.flatMap fun r => recText r ++ [13, 10]).length) := by
  intro rs
  induction rs with
  | nil =>
    intro fuel count kids _ _ hf _
    obtain ⟨fuel, rfl⟩ : ∃ k, fuel = k + 1 := ⟨fuel - 1, by omega⟩
    simp [csvLoop, CsvParser.getLineNext_nil]
  | cons r rs ih =>
    intro fuel count kids hne hok hf hm
    obtain ⟨fuel, rfl⟩ : ∃ k, fuel = k + 1 := ⟨fuel - 1, by omega⟩
    obtain ⟨text, t1, t2, t3⟩ := C20_csv_record_round_trips r (hne r (by simp)) (hok r (by simp))
    have hn : r.isEmpty = false := by
      cases r with
      | nil => exact absurd rfl (hne _ (by simp))
      | cons _ _ => rfl
    rw [csvRecord_eq true _ (hok r (by simp)), hn] at t1
    simp only [Bool.not_false, Bool.true_and, if_true, Option.some.injEq, List.append_cancel_right_eq] at t1
    rw [List.flatMap_cons] at hm ⊢
    rw [csvLoop, CsvParser.getLineNext_rec, t1]
    have hs : CMem.str ((text ++ [0]).map some) = some text := by
      have := FileCopy.str_of_take (buf := (text ++ [0]).map some) (l := text) (List.take_of_length_le (by simp))
      rw [this]
      exact congrArg some (cut_id t2)
    simp only [hs]
    rw [t1] at hm
    rw [List.length_append] at hm
    rw [if_neg (by omega), t3]
    simp only
    rw [ih fuel (count + text.length) (kids ++ [row r]) (fun x hx => hne x (by simp [hx])) (fun x hx => hok x (by simp [hx])) (by simpa using hf) (by omega)]
    simp only [List.append_assoc, List.map_cons, List.cons_append, List.nil_append, List.length_append, Nat.add_assoc]
end DataFile

open DataFile DataFileSpec Json JsonSpec in
open CsvWriter (okField) in
/-- C124. A document written by `CsvWriter` (any non-empty records of fields that are C strings) is read back as the array of its records when it fits the limit. -/
theorem C124_written_file (rs : List (List Bytes)) (hne : ∀ r ∈ rs, r ≠ []) (hok : ∀ r ∈ rs, ∀ f ∈ r, okField f) (max : Nat) :
    ∃ text, csvDocument rs = some (text ++ [0]) ∧ (text.length ≤ max →
      ∃ e, parseCsvFile (some ⟨text, false⟩) max = some (some e) ∧ doc e = .array (rs.map fun fields => .array (fields.map .string))) := by
  obtain ⟨cw, a1, a2, a3⟩ := csvRecords_ok rs hok (cw := CsvWriter.openSpecifyTerminate Writer.stringWriter true) (xs := []) Writer.init_ok rfl
  refine ⟨rs.flatMap fun r => CsvText.recText r ++ [13, 10], ?_, ?_⟩
  · have hd := Writer.dataZ_ok a2
    simp only [csvDocument, a1, Option.bind_eq_bind, Option.bind_some, CsvWriter.close, a3, Bool.not_true, Bool.false_and,
      Bool.false_eq_true, if_false, hd]
    simp
  · intro hm
    have hlen : ∀ rs : List (List Bytes), rs.length ≤ (rs.flatMap fun r => CsvText.recText r ++ [13, 10]).length := by
      intro rs
      induction rs with
      | nil => simp
      | cons r rs ih => rw [List.flatMap_cons, List.length_append, List.length_cons]; simp only [List.length_append, List.length_cons, List.length_nil] at ih ⊢; omega
    have := csvLoop_written max rs ((rs.flatMap fun r => CsvText.recText r ++ [13, 10]).length + 1) 0 [] hne hok (by have := hlen rs; omega) (by omega)
    refine ⟨.cont none .array (rs.map row), ?_, by rw [doc, docs_rows]⟩
    rw [parseCsvFile]
    simp only [this]
    simp

example : (∀ r ∈ ([[[34, 32, 44], []], [[98]]] : List (List (List UInt8))), r ≠ []) ∧
    (∀ r ∈ ([[[34, 32, 44], []], [[98]]] : List (List (List UInt8))), ∀ f ∈ r, CsvWriter.okField f) := by
  simp [CsvWriter.okField]

-- `a,"b\r\nc"\r\nd`: two records; with a limit of 10 bytes only the first is read
example : DataFileSpec.Records [97, 44, 34, 98, 13, 10, 99, 34, 13, 10, 100] [[97, 44, 34, 98, 13, 10, 99, 34, 13, 10], [100]] ∧
    DataFileSpec.within 10 [[97, 44, 34, 98, 13, 10, 99, 34, 13, 10], [100]] = [[97, 44, 34, 98, 13, 10, 99, 34, 13, 10]] ∧
    (DataFile.parseCsvFile (some ⟨[97, 44, 34, 98, 13, 10, 99, 34, 13, 10, 100], false⟩) 11).map
      (fun r => match r with | some (.cont _ .array ks) => ks.length | _ => 0) = some 2 := by
  refine ⟨?_, by decide, by decide +kernel⟩
  have hp : ∀ (l p : List UInt8), p <+: l → ∃ i, i < l.length + 1 ∧ p = l.take i := fun l p h => ⟨p.length, by have := h.length_le; omega, (List.prefix_iff_eq_take.1 h)⟩
  refine DataFileSpec.Records.cons [97, 44, 34, 98, 13, 10, 99, 34, 13, 10] [100] [[100]] ⟨by decide, by decide⟩ ?_ (.last _ (by simp) ?_)
  · intro p h
    obtain ⟨i, hi, rfl⟩ := hp _ p h
    have : ∀ i < 11, ([97, 44, 34, 98, 13, 10, 99, 34, 13, 10] : List UInt8).take i ≠ [97, 44, 34, 98, 13, 10, 99, 34, 13, 10] →
      ¬ ([13, 10] <:+ ([97, 44, 34, 98, 13, 10, 99, 34, 13, 10] : List UInt8).take i ∧ (([97, 44, 34, 98, 13, 10, 99, 34, 13, 10] : List UInt8).take i).count 34 % 2 = 0) := by decide
    exact this i hi
  · intro p h
    obtain ⟨i, hi, rfl⟩ := hp _ p h
    have : ∀ i < 2, ¬ ([13, 10] <:+ ([100] : List UInt8).take i ∧ (([100] : List UInt8).take i).count 34 % 2 = 0) := by decide
    exact this i hi

/-! ## Data files of any kind -/

namespace DataFile
open Json JsonSpec DataFileSpec

theorem anyFile_cases (rt : RealText) (events : Bytes → List Yaml.Event) (yaml : Bool) (file : Bytes) (h0 : 0 ∉ file) (max : Nat) (sched : List Io.Ev) :
    (parseAnyFile rt events yaml (some file) max sched = some .pending ∧ ¬ file.length + 1 ≤ Io.gots sched) ∨
    (Io.Ev.err ∈ sched ∧ parseAnyFile rt events yaml (some file) max sched = some (.done (.error .noSuchFile))) ∨
    (max < file.length ∧ parseAnyFile rt events yaml (some file) max sched = some (.done (.error .truncated))) ∨
    (file.length ≤ max ∧ parseAnyFile rt events yaml (some file) max sched =
      if yaml then (Yaml.parseString rt (events file)).map fun e => .done (.ok e) else (Json.parse file).map fun r => .done (r.map Prod.fst)) := by
  rcases C47_read_from_fd_partial max file sched h0 with h | ⟨he, h⟩ | ⟨w, h, h1, _⟩
  · refine Or.inl ⟨by rw [parseAnyFile]; simp only [h], fun hg => C47_terminates max _ file sched hg h⟩
  · exact Or.inr (Or.inl ⟨he, by rw [parseAnyFile]; simp only [h]⟩)
  · by_cases hm : max < file.length
    · refine Or.inr (Or.inr (Or.inl ⟨hm, ?_⟩))
      rw [decide_eq_true hm] at h
      rw [parseAnyFile]; simp only [h]
    · refine Or.inr (Or.inr (Or.inr ⟨by omega, ?_⟩))
      rw [decide_eq_false hm] at h
      have hs : CMem.str ((file ++ [0]).map some) = some file := by
        have := FileCopy.str_of_take (buf := (file ++ [0]).map some) (l := file) (List.take_of_length_le (by simp))
        rw [this]
        congr 1
        exact cut_id h0
      rw [List.take_of_length_le (by omega)] at h1
      rw [parseAnyFile]
      simp only [h, h1, hs]

/-- The document is an array or an object. -/
def IsContainer (d : Doc) : Prop := (∃ l, d = .array l) ∨ ∃ m, d = .object m

theorem container_of {e : Elem} (h : IsContainer (doc e)) : ∃ n t ks, e = .cont n t ks := by
  cases e with
  | cont n t ks => exact ⟨n, t, ks, rfl⟩
  | prim n t v => cases t <;> simp [doc, IsContainer] at h

theorem prim_of {e : Elem} (h : ¬ IsContainer (doc e)) : ∃ n t v, e = .prim n t v := by
  cases e with
  | prim n t v => exact ⟨n, t, v, rfl⟩
  | cont n t ks => cases t <;> simp [doc, IsContainer] at h
end DataFile

open DataFile DataFileSpec Json JsonSpec in
/-- C125, partial. `JsonReadDataFile` on a JSON file (or one of unknown kind) without NUL bytes that does not end in a backslash (see C25, C47), however its bytes
arrive: it waits as long as bytes are outstanding; it returns NULL if a read fails or the file is larger than `max`; otherwise it returns the document
that is the file's content by the grammar of C88 if that is an array or an object, and NULL if it is neither or there is none. -/
theorem C125_json_file_partial (rt : RealText) (events : Bytes → List Yaml.Event) (kind : Kind) (hk : kind = .json ∨ kind = .unknown) (f : File) (h0 : 0 ∉ f.bytes)
    (hl : f.bytes.getLast? ≠ some 92) (max : Nat) :
    (readDataFile rt events kind (some f) max = some .pending ∧ ¬ f.bytes.length + 1 ≤ Io.gots f.sched) ∨
    (Io.Ev.err ∈ f.sched ∧ readDataFile rt events kind (some f) max = some (.done none)) ∨
    (max < f.bytes.length ∧ readDataFile rt events kind (some f) max = some (.done none)) ∨
    (f.bytes.length ≤ max ∧
      (∀ a v r d, f.bytes = a ++ v → Blank a → Reads v r d →
        (IsContainer d → ∃ e, readDataFile rt events kind (some f) max = some (.done (some e)) ∧ doc e = d) ∧
        (¬ IsContainer d → readDataFile rt events kind (some f) max = some (.done none))) ∧
      ((¬ ∃ a v r d, f.bytes = a ++ v ∧ Blank a ∧ Reads v r d) → readDataFile rt events kind (some f) max = some (.done none))) := by
  have hr : readDataFile rt events kind (some f) max = (match parseAnyFile rt events false (some f.bytes) max f.sched with
    | none => none
    | some .pending => some .pending
    | some (.done (.error _)) => some (.done none)
    | some (.done (.ok (.prim _ _ _))) => some (.done none)
    | some (.done (.ok e)) => some (.done (some e))) := by
    rcases hk with rfl | rfl <;> rfl
  rw [hr]
  rcases anyFile_cases rt events false f.bytes h0 max f.sched with ⟨h, hg⟩ | ⟨he, h⟩ | ⟨hm, h⟩ | ⟨hm, h⟩
  · exact Or.inl ⟨by rw [h], hg⟩
  · exact Or.inr (Or.inl ⟨he, by rw [h]⟩)
  · exact Or.inr (Or.inr (Or.inl ⟨hm, by rw [h]⟩))
  · refine Or.inr (Or.inr (Or.inr ⟨hm, ?_, ?_⟩))
    · intro a v r d e1 e2 e3
      obtain ⟨e, q, g1, g2, _⟩ := (C88_accepts_exactly f.bytes h0 d r).2 ⟨a, v, e1, e2, e3⟩
      rw [h, g1]
      constructor
      · intro hc
        rw [← g2] at hc
        obtain ⟨n, t, ks, rfl⟩ := container_of hc
        exact ⟨_, rfl, g2⟩
      · intro hc
        rw [← g2] at hc
        obtain ⟨n, t, ks, rfl⟩ := prim_of hc
        rfl
    · intro hn
      obtain ⟨err, g⟩ := C88_rejects f.bytes h0 hl hn
      rw [h, g]
      rfl

open DataFile DataFileSpec Json JsonSpec in
/-- C125. A file that cannot be opened gives NULL, whatever its kind. -/
theorem C125_no_file (rt : RealText) (events : Bytes → List Yaml.Event) (kind : Kind) (max : Nat) : readDataFile rt events kind none max = some (.done none) := by
  cases kind <;> rfl

open DataFile DataFileSpec Json JsonSpec in
open YamlSpec (NodeDoc Node) in
/-- C125, partial. A YAML file is read as the document its first node stands for (see C122), NULL if that is not an array or object. -/
theorem C125_yaml_file_partial (rt : RealText) (events : Bytes → List Yaml.Event) (f : File) (h0 : 0 ∉ f.bytes) (max : Nat) (n : Node) (more : List Node) (d : Doc)
    (hev : events f.bytes = Yaml.streamEvents (n :: more)) (hd : NodeDoc n d) (hg : n.All (Yaml.GoodValue rt) Yaml.GoodKey) :
    (readDataFile rt events .yaml (some f) max = some .pending ∧ ¬ f.bytes.length + 1 ≤ Io.gots f.sched) ∨
    (Io.Ev.err ∈ f.sched ∧ readDataFile rt events .yaml (some f) max = some (.done none)) ∨
    (max < f.bytes.length ∧ readDataFile rt events .yaml (some f) max = some (.done none)) ∨
    (f.bytes.length ≤ max ∧ (IsContainer d → ∃ e, readDataFile rt events .yaml (some f) max = some (.done (some e)) ∧ doc e = d) ∧
        (¬ IsContainer d → readDataFile rt events .yaml (some f) max = some (.done none))) := by
  have hr : readDataFile rt events .yaml (some f) max = (match parseAnyFile rt events true (some f.bytes) max f.sched with
    | none => none
    | some .pending => some .pending
    | some (.done (.error _)) => some (.done none)
    | some (.done (.ok (.prim _ _ _))) => some (.done none)
    | some (.done (.ok e)) => some (.done (some e))) := rfl
  rw [hr]
  rcases anyFile_cases rt events true f.bytes h0 max f.sched with ⟨h, hg⟩ | ⟨he, h⟩ | ⟨hm, h⟩ | ⟨hm, h⟩
  · exact Or.inl ⟨by rw [h], hg⟩
  · exact Or.inr (Or.inl ⟨he, by rw [h]⟩)
  · exact Or.inr (Or.inr (Or.inl ⟨hm, by rw [h]⟩))
  · obtain ⟨e, g1, g2⟩ := Yaml.C122_read_partial rt n more d hd hg
    refine Or.inr (Or.inr (Or.inr ⟨hm, ?_, ?_⟩))
    · intro hc
      rw [← g2] at hc
      obtain ⟨n, t, ks, rfl⟩ := container_of hc
      exact ⟨_, by rw [h, hev, g1]; rfl, g2⟩
    · intro hc
      rw [← g2] at hc
      obtain ⟨n, t, ks, rfl⟩ := prim_of hc
      rw [h, hev, g1]; rfl

/-! ## Kinds of files -/

/-- The names of the kinds (json-utils.h). -/
def DataFileSpec.names : List (List UInt8 × DataFile.Kind) :=
  [([121, 97, 109, 108], .yaml), ([99, 115, 118], .csv), ([101, 110, 118], .env), ([106, 115, 111, 110], .json)]
/-- The endings that name a kind: .csv, .yaml, .yml, .env. -/
def DataFileSpec.endings : List (List UInt8 × DataFile.Kind) :=
  [([46, 99, 115, 118], .csv), ([46, 121, 97, 109, 108], .yaml), ([46, 121, 109, 108], .yaml), ([46, 101, 110, 118], .env)]

open DataFile DataFileSpec in
/-- C125. The kind a name stands for, in any mixture of cases, and `unknown` for other names. -/
theorem C125_kind_of_name (s : List UInt8) :
    (∀ n k, (n, k) ∈ names → s.map TrimSpec.lower = n → kindOfName s = k) ∧ ((∀ n k, (n, k) ∈ names → s.map TrimSpec.lower ≠ n) → kindOfName s = .unknown) := by
  have hl : Str.toLower = TrimSpec.lower := funext Str.toLower_eq
  have he : ∀ t, equalIgnoreCase s t = decide (s.map TrimSpec.lower = t.map TrimSpec.lower) := by
    intro t
    rw [equalIgnoreCase, hl, Bool.eq_iff_iff, beq_iff_eq, decide_eq_true_eq]
    exact Str.cmpSign_zero TrimSpec.lower s t
  have h1 : ([121, 97, 109, 108] : List UInt8).map TrimSpec.lower = [121, 97, 109, 108] := by decide
  have h2 : ([99, 115, 118] : List UInt8).map TrimSpec.lower = [99, 115, 118] := by decide
  have h3 : ([101, 110, 118] : List UInt8).map TrimSpec.lower = [101, 110, 118] := by decide
  have h4 : ([106, 115, 111, 110] : List UInt8).map TrimSpec.lower = [106, 115, 111, 110] := by decide
  rw [kindOfName, he, he, he, he, h1, h2, h3, h4]
  constructor
  · intro n k hm hs
    simp only [names, List.mem_cons, Prod.mk.injEq, List.not_mem_nil, or_false] at hm
    rcases hm with ⟨rfl, rfl⟩ | ⟨rfl, rfl⟩ | ⟨rfl, rfl⟩ | ⟨rfl, rfl⟩ <;> rw [hs] <;> decide
  · intro h
    simp only [names, List.mem_cons, Prod.mk.injEq, List.not_mem_nil, or_false] at h
    rw [if_neg (by simpa using h _ .yaml (Or.inl ⟨rfl, rfl⟩)), if_neg (by simpa using h _ .csv (Or.inr (Or.inl ⟨rfl, rfl⟩))),
      if_neg (by simpa using h _ .env (Or.inr (Or.inr (Or.inl ⟨rfl, rfl⟩)))), if_neg (by simpa using h _ .json (Or.inr (Or.inr (Or.inr ⟨rfl, rfl⟩))))]

open DataFile DataFileSpec in
/-- C125. The kind of a file name: the one its ending names, in any mixture of cases, and JSON for other file names. -/
theorem C125_kind_of_suffix (s : List UInt8) :
    (∀ n k, (n, k) ∈ endings → n <:+ s.map TrimSpec.lower → kindOfSuffix s = some k) ∧
    ((∀ n k, (n, k) ∈ endings → ¬ n <:+ s.map TrimSpec.lower) → kindOfSuffix s = some .json) := by
  have hl : Path.toLower = TrimSpec.lower := by
    funext c
    have h : ∀ n < 256, Path.toLower (UInt8.ofNat n) = TrimSpec.lower (UInt8.ofNat n) := by decide +kernel
    have := h c.toNat c.toNat_lt
    rwa [UInt8.ofNat_toNat] at this
  have h1 : ([46, 99, 115, 118] : List UInt8).map TrimSpec.lower = [46, 99, 115, 118] := by decide
  have h2 : ([46, 121, 97, 109, 108] : List UInt8).map TrimSpec.lower = [46, 121, 97, 109, 108] := by decide
  have h3 : ([46, 121, 109, 108] : List UInt8).map TrimSpec.lower = [46, 121, 109, 108] := by decide
  have h4 : ([46, 101, 110, 118] : List UInt8).map TrimSpec.lower = [46, 101, 110, 118] := by decide
  rw [kindOfSuffix, C65_endsWithCase, C65_endsWithCase, C65_endsWithCase, C65_endsWithCase, hl, h1, h2, h3, h4]
  simp only [Option.bind_some, decide_eq_true_eq]
  generalize s.map TrimSpec.lower = t
  have last : ∀ (x : UInt8) (a : List UInt8), (a ++ [x]) <:+ t → t.getLast? = some x := by
    rintro x a ⟨b, rfl⟩; simp
  constructor
  · intro n k hm hs
    simp only [endings, List.mem_cons, Prod.mk.injEq, List.not_mem_nil, or_false] at hm
    have exc : ∀ n' : List UInt8, (∀ m : Nat, n'.length - m = 0 ∨ n.length - m = 0 ∨ True) → n' <:+ t → n' <:+ n ∨ n <:+ n' := by
      intro n' _ h'
      rcases Nat.le_total n'.length n.length with hle | hle
      · exact Or.inl (List.suffix_of_suffix_length_le h' hs hle)
      · exact Or.inr (List.suffix_of_suffix_length_le hs h' hle)
    rcases hm with ⟨rfl, rfl⟩ | ⟨rfl, rfl⟩ | ⟨rfl, rfl⟩ | ⟨rfl, rfl⟩
    · rw [if_pos hs]
    · rw [if_neg (fun h => absurd (exc _ (fun _ => Or.inr (Or.inr trivial)) h) (by decide)), if_pos hs]
    · rw [if_neg (fun h => absurd (exc _ (fun _ => Or.inr (Or.inr trivial)) h) (by decide)),
        if_neg (fun h => absurd (exc _ (fun _ => Or.inr (Or.inr trivial)) h) (by decide)), if_pos hs]
    · rw [if_neg (fun h => absurd (exc _ (fun _ => Or.inr (Or.inr trivial)) h) (by decide)),
        if_neg (fun h => absurd (exc _ (fun _ => Or.inr (Or.inr trivial)) h) (by decide)),
        if_neg (fun h => absurd (exc _ (fun _ => Or.inr (Or.inr trivial)) h) (by decide)), if_pos hs]
  · intro h
    simp only [endings, List.mem_cons, Prod.mk.injEq, List.not_mem_nil, or_false] at h
    rw [if_neg (h _ .csv (Or.inl ⟨rfl, rfl⟩)), if_neg (h _ .yaml (Or.inr (Or.inl ⟨rfl, rfl⟩))), if_neg (h _ .yaml (Or.inr (Or.inr (Or.inl ⟨rfl, rfl⟩)))),
      if_neg (h _ .env (Or.inr (Or.inr (Or.inr ⟨rfl, rfl⟩))))]

/-- **C125**. The names `DataFileTypeToString` gives. -/
theorem C125_names : DataFile.nameOfKind .csv = "CSV".toUTF8.toList ∧ DataFile.nameOfKind .yaml = "YAML".toUTF8.toList ∧ DataFile.nameOfKind .env = "ENV".toUTF8.toList ∧
    DataFile.nameOfKind .json = "JSON".toUTF8.toList ∧ DataFile.nameOfKind .unknown = "unknown".toUTF8.toList := by decide +kernel

/-- C125. Names and kinds: a kind's printed name stands for the kind. -/
theorem C125_names_round_trip (k : DataFile.Kind) : DataFile.kindOfName (DataFile.nameOfKind k) = k := by cases k <;> decide +kernel

example : DataFile.kindOfSuffix [120, 46, 89, 109, 76] = some .yaml := by decide +kernel
-- a file `{"a": [1]}`, in two reads
example : ∃ e, DataFile.readDataFile (fun v => v) (fun _ => []) .json (some ⟨[123, 34, 97, 34, 58, 32, 91, 49, 93, 125], false, [.got 3, .eintr, .got 10, .got 1]⟩) 10 = some (.done (some e)) :=
  ⟨_, rfl⟩
