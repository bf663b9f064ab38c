import Verif.Model.Writers
import Verif.Spec.Writers
import Verif.Lemmas.Writer
/-! # Lemmas about both kinds of writer -/
open WriterSpec (Op added ok)
open WritersSpec (addedFile count counts)

namespace Writers

/-- One call. -/
def exec (σ : World) (h : Handle) : Op → Option (World × Handle × Nat)
  | .writeLen s n => writeLen σ h s n
  | .write s => write σ h s
  | .writeF t => writeF σ h t
  | .writeChar c => writeChar σ h c

/-- A series of calls, with what each returned. -/
def execs (σ : World) (h : Handle) : List Op → Option (World × Handle × List Nat)
  | [] => some (σ, h, [])
  | op :: ops => do
    let (σ, h, n) ← exec σ h op
    let (σ, h, ns) ← execs σ h ops
    some (σ, h, n :: ns)

/-- A string writer made in `σ₀` after `xs` has been written to it. -/
structure StrInv (σ₀ σ : World) (h : Handle) (xs : Bytes) : Prop where
  ex : ∃ w, h = ⟨σ₀.next, .string w (σ₀.next + 1)⟩ ∧ Writer.WRep w xs
  live : σ.live = (σ₀.next + 1) :: σ₀.next :: σ₀.live
  next : σ.next = σ₀.next + 2
  files : σ.files = σ₀.files

/-- A file writer made in `σ₀` on `f` after `xs` has been handed to it. -/
structure FileInv (σ₀ : World) (f : Nat) (σ : World) (h : Handle) (xs : Bytes) : Prop where
  hd : h = ⟨σ₀.next, .file f⟩
  live : σ.live = σ₀.next :: σ₀.live
  next : σ.next = σ₀.next + 1
  files : ∀ g, g ≠ f → σ.files g = σ₀.files g
  file : σ.files f = ⟨(σ₀.files f).content ++ xs.take (σ₀.files f).room, (σ₀.files f).room - xs.length, true⟩

theorem strInit (σ : World) : StrInv σ (stringWriter σ).1 (stringWriter σ).2 [] :=
  ⟨⟨_, rfl, Writer.init_ok⟩, rfl, rfl, rfl⟩

theorem fileInit (σ : World) (f : Nat) (ho : (σ.files f).isOpen = true) : FileInv σ f (fileWriter σ f).1 (fileWriter σ f).2 [] := by
  refine ⟨rfl, rfl, rfl, fun _ _ => rfl, ?_⟩
  simp only [fileWriter, alloc, List.take_nil, List.append_nil, List.length_nil, Nat.sub_zero]
  rw [← ho]

theorem strExec {σ₀ σ : World} {h : Handle} {xs : Bytes} (hi : StrInv σ₀ σ h xs) (op : Op) (hok : ok op) :
    ∃ h', exec σ h op = some (σ, h', (added op).length) ∧ StrInv σ₀ σ h' (xs ++ added op) := by
  obtain ⟨⟨w, rfl, hw⟩, hl, hn, hf⟩ := hi
  obtain ⟨w', e1, e2⟩ := Writer.exec_ok hw op hok
  have h1 : σ₀.next ∈ σ.live := by rw [hl]; simp
  have h2 : σ₀.next + 1 ∈ σ.live := by rw [hl]; simp
  refine ⟨⟨σ₀.next, .string w' (σ₀.next + 1)⟩, ?_, ⟨w', rfl, e2⟩, hl, hn, hf⟩
  cases op <;> simp only [Writer.exec, Writer.write] at e1 <;>
    simp [exec, writeLen, write, writeF, writeChar, onString, h1, h2, e1]

theorem take_take_sub (xs ys : Bytes) (r : Nat) : xs.take r ++ ys.take (r - xs.length) = (xs ++ ys).take r := by
  rw [List.take_append]

theorem fileFwrite {σ₀ σ : World} {f : Nat} {h : Handle} {xs : Bytes} (hi : FileInv σ₀ f σ h xs) (bs : Bytes) :
    ∃ σ', fwrite σ f bs = some (σ', min bs.length ((σ₀.files f).room - xs.length)) ∧ FileInv σ₀ f σ' h (xs ++ bs) := by
  obtain ⟨hd, hl, hn, hf, he⟩ := hi
  refine ⟨_, by simp only [fwrite, he, if_true]; rfl, hd, ?_, ?_, ?_, ?_⟩
  · simpa [setFile] using hl
  · simpa [setFile] using hn
  · intro g hg; simp [setFile, hg, hf g hg]
  · simp [setFile, take_take_sub, List.append_assoc]; omega

theorem hz (t : Bytes) (h0 : 0 ∉ t) (hl : t.length ≤ 2147483647) :
      ((t ++ [0]).take Writer.intMax).takeWhile (fun x => decide (x ≠ 0)) = t := by
    have h1 : (t ++ [0]).take Writer.intMax = t ++ ([0] : List UInt8).take (Writer.intMax - t.length) := by
      rw [List.take_append, List.take_of_length_le (by exact hl)]
    rw [h1, List.takeWhile_append_of_pos (by intro a ha; simp; intro hh; exact h0 (hh ▸ ha))]
    cases Writer.intMax - t.length <;> simp

theorem fileLen {σ₀ σ : World} {f : Nat} {h : Handle} {xs : Bytes} (hi : FileInv σ₀ f σ h xs) (s : Bytes) (n : Nat)
    (hok : n ≤ s.length ∨ 0 ∈ s) :
    ∃ σ', fileWriteLen σ f s n = some (σ', min ((s.take n).takeWhile (· ≠ 0)).length ((σ₀.files f).room - xs.length)) ∧
      FileInv σ₀ f σ' h (xs ++ (s.take n).takeWhile (· ≠ 0)) := by
  obtain ⟨s1, s2, s3⟩ := Buffer.strnlen_ok n s hok
  rw [show BufferSpec.cstr (s.take n) = (s.take n).takeWhile (· ≠ 0) from rfl] at s1 s2 s3
  obtain ⟨σ', e1, e2⟩ := fileFwrite hi ((s.take n).takeWhile (· ≠ 0))
  refine ⟨σ', ?_, e2⟩
  simp only [fileWriteLen, s1, Option.bind_eq_bind, Option.bind_some]
  rw [s3, e1]

theorem fileExec {σ₀ σ : World} {f : Nat} {h : Handle} {xs : Bytes} (hi : FileInv σ₀ f σ h xs) (op : Op) (hok : ok op) :
    ∃ σ', exec σ h op = some (σ', h, count ((σ₀.files f).room - xs.length) op) ∧ FileInv σ₀ f σ' h (xs ++ addedFile op) := by
  have hs : h.self ∈ σ.live := by rw [hi.hd, hi.live]; simp
  have hk : h.kind = .file f := by rw [hi.hd]
  have hmin : ∀ (a b : Nat), min a b = if a ≤ b then a else b := fun a b => by split <;> omega
  cases op with
  | writeLen s n =>
    obtain ⟨σ', e1, e2⟩ := fileLen hi s n hok
    refine ⟨σ', ?_, e2⟩
    simp only [exec, writeLen, hs, hk, if_true, onFile, e1, Option.bind_eq_bind, Option.bind_some, count, addedFile, added, hmin]
    rfl
  | write s =>
    obtain ⟨σ', e1, e2⟩ := fileLen hi (s ++ [0]) Writer.intMax (Or.inr (by simp))
    rw [hz s hok.1 hok.2] at e1 e2
    refine ⟨σ', ?_, e2⟩
    simp only [exec, write, writeLen, hs, hk, if_true, onFile, e1, Option.bind_eq_bind, Option.bind_some, count, addedFile, added, hmin]
    rfl
  | writeChar c =>
    obtain ⟨σ', e1, e2⟩ := fileLen hi [c, 0] 1 (Or.inl (by simp))
    have : ([c, 0].take 1).takeWhile (fun x => decide (x ≠ 0)) = addedFile (.writeChar c) := by
      by_cases hc : c = 0 <;> simp [addedFile, hc]
    rw [this] at e1 e2
    refine ⟨σ', ?_, e2⟩
    simp only [exec, writeChar, hs, hk, if_true, onFile, e1, Option.bind_eq_bind, Option.bind_some, count, hmin]
  | writeF t =>
    obtain ⟨σ', e1, e2⟩ := fileFwrite hi t
    refine ⟨σ', ?_, e2⟩
    have hc' : count ((σ₀.files f).room - xs.length) (.writeF t) =
        if t.length ≤ (σ₀.files f).room - xs.length then t.length else 2 ^ 64 - 1 := rfl
    rw [hc']
    simp only [exec, writeF, hs, hk, if_true, onFile, fileWriteF, e1, Option.bind_eq_bind, Option.bind_some]
    by_cases hc : t.length ≤ (σ₀.files f).room - xs.length
    · rw [if_pos (by omega), if_pos hc]; simp; omega
    · rw [if_neg (by omega), if_neg hc]; simp [minusOne]

theorem strExecs : ∀ (ops : List Op) {σ₀ σ : World} {h : Handle} {xs : Bytes}, StrInv σ₀ σ h xs → (∀ op ∈ ops, ok op) →
    ∃ h', execs σ h ops = some (σ, h', ops.map fun op => (added op).length) ∧ StrInv σ₀ σ h' (xs ++ ops.flatMap added) := by
  intro ops
  induction ops with
  | nil => intro σ₀ σ h xs hi _; exact ⟨h, rfl, by simpa using hi⟩
  | cons op ops ih =>
    intro σ₀ σ h xs hi hok
    obtain ⟨h1, e1, e2⟩ := strExec hi op (hok op (by simp))
    obtain ⟨h2, f1, f2⟩ := ih e2 (fun o ho => hok o (by simp [ho]))
    exact ⟨h2, by simp [execs, e1, f1], by simpa [List.append_assoc] using f2⟩

theorem fileExecs : ∀ (ops : List Op) {σ₀ σ : World} {f : Nat} {h : Handle} {xs : Bytes}, FileInv σ₀ f σ h xs → (∀ op ∈ ops, ok op) →
    ∃ σ', execs σ h ops = some (σ', h, counts ((σ₀.files f).room - xs.length) ops) ∧ FileInv σ₀ f σ' h (xs ++ ops.flatMap addedFile) := by
  intro ops
  induction ops with
  | nil => intro σ₀ σ f h xs hi _; exact ⟨σ, rfl, by simpa using hi⟩
  | cons op ops ih =>
    intro σ₀ σ f h xs hi hok
    obtain ⟨σ1, e1, e2⟩ := fileExec hi op (hok op (by simp))
    obtain ⟨σ2, f1, f2⟩ := ih e2 (fun o ho => hok o (by simp [ho]))
    refine ⟨σ2, ?_, by simpa [List.append_assoc] using f2⟩
    have : (σ₀.files f).room - (xs ++ addedFile op).length = (σ₀.files f).room - xs.length - (addedFile op).length := by simp; omega
    rw [this] at f1
    simp [execs, e1, f1, counts]

/-! ## The help text as a series of formatted writes -/

/-- A series of formatted writes whose results nobody looks at. -/
def runF (σ : World) (h : Handle) : List Bytes → Option (World × Handle)
  | [] => some (σ, h)
  | t :: ts => do
    let (σ, h, _) ← writeF σ h t
    runF σ h ts

theorem runF_append (a b : List Bytes) : ∀ (σ : World) (h : Handle),
    runF σ h (a ++ b) = (runF σ h a).bind fun r => runF r.1 r.2 b := by
  induction a with
  | nil => intro σ h; rfl
  | cons t ts ih =>
    intro σ h
    simp only [List.cons_append, runF]
    cases writeF σ h t with
    | none => rfl
    | some r => simp only [Option.bind_eq_bind, Option.bind_some]; exact ih _ _

theorem runF_eq (ts : List Bytes) : ∀ (σ : World) (h : Handle),
    runF σ h ts = (execs σ h (ts.map .writeF)).map fun r => (r.1, r.2.1) := by
  induction ts with
  | nil => intro σ h; rfl
  | cons t ts ih =>
    intro σ h
    simp only [runF, List.map_cons, execs, exec]
    cases writeF σ h t with
    | none => rfl
    | some r =>
      simp only [Option.bind_eq_bind, Option.bind_some, ih]
      cases execs r.1 r.2.1 (ts.map .writeF) <;> rfl

end Writers
