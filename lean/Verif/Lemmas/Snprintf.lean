import Verif.Spec.Snprintf
/-! # Lemmas about the model of libcompat/snprintf.c -/
namespace Snprintf

/-- What putting out a text does to the block. -/
def put (size : Nat) : List (Option UInt8) → Nat → Bytes → List (Option UInt8)
  | buf, _, [] => buf
  | buf, len, c :: t => put size (if len + 1 < size then buf.set len (some c) else buf) (len + 1) t

def emit (size : Nat) (o : Out) (t : Bytes) : Out := ⟨put size o.buf o.len t, o.len + t.length⟩

@[simp] theorem put_length (size : Nat) (t : Bytes) : ∀ buf len, (put size buf len t).length = buf.length := by
  induction t with
  | nil => intro buf len; rfl
  | cons c t ih => intro buf len; rw [put, ih]; split <;> simp

theorem put_append (size : Nat) (t u : Bytes) : ∀ buf len, put size buf len (t ++ u) = put size (put size buf len t) (len + t.length) u := by
  induction t with
  | nil => intro buf len; rfl
  | cons c t ih =>
    intro buf len
    simp only [List.cons_append, put, List.length_cons]
    rw [ih]; congr 1; omega

theorem emit_append (size : Nat) (o : Out) (t u : Bytes) : emit size o (t ++ u) = emit size (emit size o t) u := by
  simp only [emit, put_append, List.length_append, Nat.add_assoc]

@[simp] theorem emit_nil (size : Nat) (o : Out) : emit size o [] = o := by simp [emit, put]

@[simp] theorem emit_buf_length (size : Nat) (o : Out) (t : Bytes) : (emit size o t).buf.length = o.buf.length := by simp [emit]

@[simp] theorem emit_len (size : Nat) (o : Out) (t : Bytes) : (emit size o t).len = o.len + t.length := rfl

theorem outchar_eq {size : Nat} {o : Out} (h : size ≤ o.buf.length) (c : UInt8) : outchar size o c = some (emit size o [c]) := by
  unfold outchar emit
  by_cases hl : o.len + 1 < size
  · simp [hl, put, CMem.write_eq (show o.len < o.buf.length by omega)]
  · simp [hl, put]

theorem outRepeat_eq {size : Nat} (c : UInt8) : ∀ (n : Nat) (o : Out), size ≤ o.buf.length →
    outRepeat size c n o = some (emit size o (List.replicate n c)) := by
  intro n
  induction n with
  | zero => intro o _; simp [outRepeat]
  | succ n ih =>
    intro o h
    rw [outRepeat, outchar_eq h, Option.bind_some, ih _ (by simpa using h), ← emit_append]
    rfl

theorem outAll_eq {size : Nat} : ∀ (t : Bytes) (o : Out), size ≤ o.buf.length → outAll size t o = some (emit size o t) := by
  intro t
  induction t with
  | nil => intro o _; simp [outAll]
  | cons c t ih =>
    intro o h
    rw [outAll, outchar_eq h, Option.bind_some, ih _ (by simpa using h), ← emit_append]
    rfl

/-! ## Output does not depend on the block -/

/-- `f` puts out the text `r`, whatever the block. -/
def Emits (f : Nat → Out → Option Out) (r : Option Bytes) : Prop :=
  ∀ size o, size ≤ o.buf.length → f size o = r.map (emit size o)

def Uni (f : Nat → Out → Option Out) : Prop := ∃ r, Emits f r

theorem Emits.bind {f g : Nat → Out → Option Out} {r r' : Option Bytes} (hf : Emits f r) (hg : Emits g r') :
    Emits (fun size o => (f size o).bind (g size)) (r.bind fun t => r'.map (t ++ ·)) := by
  intro size o h
  simp only [hf size o h]
  cases r with
  | none => rfl
  | some t =>
    simp only [Option.map_some, Option.bind_some]
    rw [hg size _ (by simpa using h)]
    cases r' <;> simp [emit_append]

theorem Uni.bind {f g : Nat → Out → Option Out} (hf : Uni f) (hg : Uni g) : Uni (fun size o => (f size o).bind (g size)) := by
  obtain ⟨r, hr⟩ := hf; obtain ⟨r', hr'⟩ := hg
  exact ⟨_, hr.bind hr'⟩

theorem Uni.none : Uni (fun _ _ => Option.none) := ⟨Option.none, fun _ _ _ => rfl⟩
theorem Uni.id : Uni (fun _ o => some o) := ⟨some [], fun _ _ _ => by simp⟩
theorem Uni.outchar (c : UInt8) : Uni (fun size o => outchar size o c) := ⟨some [c], fun _ _ h => by simp [outchar_eq h]⟩
theorem Uni.outRepeat (c : UInt8) (n : Nat) : Uni (fun size o => outRepeat size c n o) := ⟨some _, fun _ _ h => outRepeat_eq c n _ h⟩
theorem Uni.outAll (t : Bytes) : Uni (fun size o => outAll size t o) := ⟨some t, fun _ _ h => outAll_eq t _ h⟩
theorem Uni.ite {f g : Nat → Out → Option Out} (p : Prop) [Decidable p] (hf : Uni f) (hg : Uni g) : Uni (fun size o => if p then f size o else g size o) := by
  by_cases h : p <;> simp only [h, if_true, if_false] <;> assumption
theorem Uni.obind {α : Type} (x : Option α) {f : α → Nat → Out → Option Out} (hf : ∀ a, Uni (f a)) : Uni (fun size o => x.bind fun a => f a size o) := by
  cases x with
  | none => exact Uni.none
  | some a => exact hf a

theorem Uni.strOutLoop (m : Bytes) (np : Bool) : ∀ (k i : Nat) (p : Int), Uni (fun size o => strOutLoop size m np k i p o) := by
  intro k
  induction k with
  | zero => intro i p; exact Uni.none
  | succ k ih =>
    intro i p
    simp only [Snprintf.strOutLoop]
    refine Uni.obind _ fun c => ?_
    refine Uni.ite _ ?_ Uni.id
    exact (Uni.outchar c).bind (ih _ _)

theorem Uni.fmtstr (m : Bytes) (w p : Int) (fl : Flags) : Uni (fun size o => fmtstr size o m w p fl) := by
  unfold Snprintf.fmtstr
  refine Uni.obind _ fun n => ?_
  refine Uni.obind _ fun d => ?_
  refine Uni.bind (Uni.outRepeat _ _) ?_
  exact Uni.bind (Uni.strOutLoop _ _ _ _ _) (Uni.outRepeat _ _)

theorem Uni.digitsLoop (sep : Bytes) (n : Nat) (ic : Bytes) : ∀ pos, Uni (fun size o => digitsLoop size sep n ic pos o) := by
  intro pos
  induction pos with
  | zero => exact Uni.id
  | succ pos ih =>
    simp only [Snprintf.digitsLoop]
    refine Uni.obind _ fun c => ?_
    refine Uni.bind (Uni.outchar c) ?_
    refine Uni.ite _ ?_ ih
    exact Uni.bind (Uni.outAll sep) ih

theorem Uni.fmtint (sep : Bytes) (v : Int) (b : Nat) (w p : Int) (fl : Flags) : Uni (fun size o => fmtint sep size o v b w p fl) := by
  unfold Snprintf.fmtint
  refine Uni.obind _ fun u => ?_
  refine Uni.obind _ fun z => ?_
  refine Uni.obind _ fun s => ?_
  refine Uni.obind _ fun z2 => ?_
  refine Uni.bind (Uni.outRepeat _ _) ?_
  refine Uni.bind (Uni.ite _ (Uni.outchar _) Uni.id) ?_
  refine Uni.bind (Uni.ite _ (Uni.bind (Uni.outchar _) (Uni.outchar _)) Uni.id) ?_
  refine Uni.bind (Uni.outRepeat _ _) ?_
  exact Uni.bind (Uni.digitsLoop _ _ _ _) (Uni.outRepeat _ _)

/-- A step and its text do not depend on the block. -/
def SU (len : Nat) (F : Nat → Out → Option (St × Out)) : Prop :=
  ∃ r : Option (St × Bytes), ∀ size buf, size ≤ buf.length → F size ⟨buf, len⟩ = r.map fun x => (x.1, emit size ⟨buf, len⟩ x.2)

theorem SU.none (len : Nat) : SU len (fun _ _ => Option.none) := ⟨Option.none, fun _ _ _ => rfl⟩
theorem SU.some (len : Nat) (s : St) : SU len (fun _ o => Option.some (s, o)) := ⟨Option.some (s, []), fun _ _ _ => by simp⟩
theorem SU.map (len : Nat) (s : St) {F : Nat → Out → Option Out} (hF : Uni F) : SU len (fun size o => (F size o).map fun o => (s, o)) := by
  obtain ⟨r, hr⟩ := hF
  refine ⟨r.map fun t => (s, t), fun size buf h => ?_⟩
  simp only
  rw [hr size ⟨buf, len⟩ h]
  cases r <;> rfl
theorem SU.obind {α : Type} (len : Nat) (x : Option α) {f : α → Nat → Out → Option (St × Out)} (hf : ∀ a, SU len (f a)) : SU len (fun size o => x.bind fun a => f a size o) := by
  cases x with
  | none => exact SU.none len
  | some a => exact hf a
theorem SU.ite {len : Nat} {f g : Nat → Out → Option (St × Out)} (p : Prop) [Decidable p] (hf : SU len f) (hg : SU len g) : SU len (fun size o => if p then f size o else g size o) := by
  by_cases h : p <;> simp only [h, if_true, if_false] <;> assumption

theorem su_convUnsigned (sep : Bytes) (len : Nat) (s : St) (b : Nat) (up : Bool) : SU len (fun size o => convUnsigned sep size s o b up) := by
  unfold convUnsigned
  refine SU.obind _ _ fun a => ?_
  refine SU.obind _ _ fun v => ?_
  exact SU.map _ _ (Uni.fmtint _ _ _ _ _ _)

theorem Uni.backLoop (cs : Bytes) (stop : Nat) : ∀ pos, Uni (fun size o => backLoop size cs stop pos o) := by
  intro pos
  induction pos with
  | zero => exact Uni.id
  | succ pos ih =>
    simp only [Snprintf.backLoop]
    refine Uni.ite _ ?_ Uni.id
    refine Uni.obind _ fun c => ?_
    exact Uni.bind (Uni.outchar c) ih

theorem Uni.fltOut (sep : Bytes) (f : Fl) (sign : UInt8) (width : Int) (fl : Flags) : Uni (fun size o => fltOut sep size o f sign width fl) := by
  unfold Snprintf.fltOut
  refine Uni.obind _ fun d => ?_
  refine Uni.bind (Uni.ite _ (Uni.outchar _) Uni.id) ?_
  refine Uni.bind (Uni.outRepeat _ _) ?_
  refine Uni.bind (Uni.outRepeat _ _) ?_
  refine Uni.bind (Uni.ite _ (Uni.outchar _) Uni.id) ?_
  refine Uni.bind (Uni.digitsLoop _ _ _ _) ?_
  refine Uni.bind (Uni.ite _ (Uni.outchar _) Uni.id) ?_
  refine Uni.bind (Uni.outRepeat _ _) ?_
  refine Uni.bind (Uni.backLoop _ _ _) ?_
  exact Uni.bind (Uni.backLoop _ _ _) (Uni.outRepeat _ _)

theorem SU.flag (len : Nat) (s : St) (as : List Arg) {F : Nat → Out → Option Out} (b : Bool) (hF : Uni F) :
    SU len (fun size o => ((F size o).map fun o => (b, o)).map fun x => ({ reset s as with overflow := x.1 }, x.2)) := by
  obtain ⟨r, hr⟩ := hF
  refine ⟨r.map fun t => ({ reset s as with overflow := b }, t), fun size buf h => ?_⟩
  simp only
  rw [hr size ⟨buf, len⟩ h]
  cases r <;> rfl

theorem su_convFloat (sep : Bytes) (len : Nat) (s : St) (p : Int) (fl : Flags) : SU len (fun size o => convFloat sep size s o p fl) := by
  unfold convFloat
  refine SU.obind _ _ fun a => ?_
  refine SU.obind _ _ fun r => ?_
  unfold Snprintf.fmtflt
  cases r with
  | nan => exact SU.flag _ _ _ _ (Uni.fmtstr _ _ _ _)
  | inf n => exact SU.flag _ _ _ _ (Uni.fmtstr _ _ _ _)
  | fin n v =>
    dsimp only
    cases fltDigits v (if fl.typeG = true then (if p = -1 then 6 else p) - 1 else (if p = -1 then 6 else p)) fl.typeG (fl.typeE || fl.typeG)
      (if (fl.typeE || fl.typeG) = true then Flt.getexponent v else 0) with
    | none => exact ⟨some ({ reset s a.2 with overflow := true }, []), fun size buf h => by simp⟩
    | some f => exact SU.flag _ _ _ _ (Uni.fltOut _ _ _ _ _)

theorem su_convCase (sep : Bytes) (len : Nat) (s : St) (ch : UInt8) : SU len (fun size o => convCase sep size s o ch) := by
  unfold convCase
  refine SU.ite _ ?_ (SU.ite _ (su_convUnsigned _ _ _ _ _) (SU.ite _ (su_convUnsigned _ _ _ _ _) (SU.ite _ (su_convUnsigned _ _ _ _ _) (SU.ite _ (su_convUnsigned _ _ _ _ _)
    (SU.ite _ (su_convFloat _ _ _ _ _) (SU.ite _ (su_convFloat _ _ _ _ _) (SU.ite _ (su_convFloat _ _ _ _ _) (SU.ite _ (su_convFloat _ _ _ _ _) (SU.ite _ (su_convFloat _ _ _ _ _)
    (SU.ite _ (su_convFloat _ _ _ _ _) (SU.ite _ ?_ (SU.ite _ ?_ (SU.ite _ ?_ (SU.ite _ ?_ (SU.ite _ ?_ ?_)))))))))))))))
  · refine SU.obind _ _ fun a => ?_
    refine SU.obind _ _ fun v => ?_
    exact SU.map _ _ (Uni.fmtint _ _ _ _ _ _)
  · refine SU.obind _ _ fun a => ?_
    rcases a with ⟨a | a | a | a | a | a | a, as⟩
    · exact SU.map _ _ (Uni.outchar _)
    all_goals exact SU.none _
  · refine SU.obind _ _ fun a => ?_
    rcases a with ⟨a | a | a | (_ | a) | a | a | a, as⟩
    · exact SU.none _
    · exact SU.none _
    · exact SU.map _ _ (Uni.fmtstr _ _ _ _)
    · exact SU.map _ _ (Uni.fmtstr _ _ _ _)
    all_goals exact SU.none _
  · refine SU.obind _ _ fun a => ?_
    rcases a with ⟨a | a | a | (_ | a) | a | a | a, as⟩
    · exact SU.none _
    · exact SU.none _
    · exact SU.none _
    · exact SU.map _ _ (Uni.fmtstr _ _ _ _)
    · exact SU.map _ _ (Uni.fmtint _ _ _ _ _ _)
    all_goals exact SU.none _
  · refine SU.obind _ _ fun a => ?_
    rcases a with ⟨a | a | a | a | a | a | a, as⟩
    · exact SU.none _
    · exact SU.none _
    · exact SU.none _
    · exact SU.none _
    · exact ⟨some ({ reset s as with stores := s.stores ++ [storeOf s.cflags len] }, []), fun size buf h => by simp⟩
    · exact SU.none _
    · exact SU.none _
  · exact SU.map _ _ (Uni.outchar _)
  · exact SU.some _ _

theorem su_modCase (sep : Bytes) (len : Nat) (s : St) (ch : UInt8) : SU len (fun size o => modCase sep size s o ch) := by
  unfold modCase
  exact SU.ite _ (SU.some _ _) (SU.ite _ (SU.some _ _) (SU.ite _ (SU.some _ _) (SU.ite _ (SU.some _ _) (SU.ite _ (SU.some _ _) (SU.ite _ (SU.some _ _)
    (su_convCase _ _ _ _))))))

theorem su_precCase (sep : Bytes) (len : Nat) (s : St) (ch : UInt8) : SU len (fun size o => precCase sep size s o ch) := by
  unfold precCase
  refine SU.ite _ (SU.ite _ (SU.some _ _) (SU.some _ _)) (SU.ite _ ?_ (su_modCase sep _ _ ch))
  refine SU.obind _ _ fun a => ?_
  rcases a with ⟨a | a | a | a | a | a | a, as⟩
  · exact SU.some _ _
  all_goals exact SU.none _

theorem su_dotCase (sep : Bytes) (len : Nat) (s : St) (ch : UInt8) : SU len (fun size o => dotCase sep size s o ch) := by
  unfold dotCase
  exact SU.ite _ (SU.some _ _) (su_modCase _ _ _ _)

theorem su_widthCase (sep : Bytes) (len : Nat) (s : St) (ch : UInt8) : SU len (fun size o => widthCase sep size s o ch) := by
  unfold widthCase
  refine SU.ite _ (SU.ite _ (SU.some _ _) (SU.some _ _)) (SU.ite _ ?_ (su_dotCase sep _ s ch))
  refine SU.obind _ _ fun a => ?_
  rcases a with ⟨a | a | a | a | a | a | a, as⟩
  · refine SU.ite _ ?_ (SU.some _ _)
    cases int32 (-wrap 32 a) with
    | none => exact SU.none _
    | some w => exact SU.some _ _
  all_goals exact SU.none _

theorem su_flagsCase (sep : Bytes) (len : Nat) (s : St) (ch : UInt8) : SU len (fun size o => flagsCase sep size s o ch) := by
  unfold flagsCase
  exact SU.ite _ (SU.some _ _) (SU.ite _ (SU.some _ _) (SU.ite _ (SU.some _ _) (SU.ite _ (SU.some _ _) (SU.ite _ (SU.some _ _) (SU.ite _ (SU.some _ _)
    (su_widthCase _ _ _ _))))))

theorem su_step (sep : Bytes) (len : Nat) (s : St) (ch : UInt8) : SU len (fun size o => step sep size s o ch) := by
  rcases s with ⟨st, fl, w, p, cf, ov, as, stores⟩
  cases st
  · exact SU.ite _ (SU.some _ _) (SU.map _ _ (Uni.outchar ch))
  · exact su_flagsCase _ _ _ _
  · exact su_widthCase _ _ _ _
  · exact su_dotCase _ _ _ _
  · exact su_precCase _ _ _ _
  · exact su_modCase _ _ _ _
  · exact SU.ite _ (SU.some _ _) (su_convCase sep _ _ ch)
  · exact SU.ite _ (SU.some _ _) (su_convCase sep _ _ ch)
  · exact su_convCase _ _ _ _

theorem su_run (sep : Bytes) : ∀ (f : Bytes) (len : Nat) (s : St), SU len (fun size o => run sep size f s o) := by
  intro f
  induction f with
  | nil => intro len s; exact SU.some _ s
  | cons c f ih =>
    intro len s
    obtain ⟨r, hr⟩ := su_step sep len s c
    cases r with
    | none => exact ⟨none, fun size buf h => by simp only [run, hr size buf h]; rfl⟩
    | some x =>
      obtain ⟨s', t⟩ := x
      obtain ⟨r', hr'⟩ := ih (len + t.length) s'
      refine ⟨if s'.overflow then some (s', t) else r'.map fun y => (y.1, t ++ y.2), fun size buf h => ?_⟩
      simp only [run, hr size buf h, Option.map_some, Option.bind_some]
      by_cases hov : s'.overflow = true
      · simp only [hov, if_true, Option.map_some]
      · rw [if_neg hov, if_neg hov]
        have := hr' size (emit size ⟨buf, len⟩ t).buf (by simpa using h)
        have he : (⟨(emit size ⟨buf, len⟩ t).buf, len + t.length⟩ : Out) = emit size ⟨buf, len⟩ t := rfl
        rw [he] at this
        refine this.trans ?_
        cases r' <;> simp [emit_append]

/-! ## The block after the call -/

theorem put_getElem? (size : Nat) (t : Bytes) : ∀ (buf : List (Option UInt8)) (len : Nat), size ≤ buf.length → ∀ i,
    (put size buf len t)[i]? = if len ≤ i ∧ i < len + t.length ∧ i + 1 < size then t[i - len]?.map some else buf[i]? := by
  induction t with
  | nil => intro buf len h i; simp only [put, List.length_nil]; rw [if_neg (by omega)]
  | cons c t ih =>
    intro buf len h i
    rw [put, ih _ _ (by split <;> simpa using h)]
    by_cases h1 : len + 1 ≤ i ∧ i < len + 1 + t.length ∧ i + 1 < size
    · rw [if_pos h1, if_pos ⟨by omega, by simp only [List.length_cons]; omega, h1.2.2⟩]
      obtain ⟨k, hk⟩ : ∃ k, i - len = k + 1 := ⟨i - len - 1, by omega⟩
      rw [hk, show i - (len + 1) = k by omega]; rfl
    · rw [if_neg h1]
      by_cases h2 : len ≤ i ∧ i < len + (c :: t).length ∧ i + 1 < size
      · rw [if_pos h2]
        simp only [List.length_cons] at h2
        have : i = len := by omega
        subst this
        rw [if_pos (by omega), Nat.sub_self, List.getElem?_set_self (by omega)]; rfl
      · rw [if_neg h2]
        split
        · rename_i h3
          rw [List.getElem?_set_ne]
          simp only [List.length_cons] at h2
          omega
        · rfl

theorem terminate_emit {size : Nat} {blk : List (Option UInt8)} (h : size ≤ blk.length) (t : Bytes) :
    terminate size (emit size ⟨blk, 0⟩ t) = some (Spec.filled blk size t) := by
  unfold terminate Spec.filled
  simp only [emit_len, Nat.zero_add]
  by_cases h0 : size = 0
  · subst h0
    simp only [Nat.not_lt_zero, if_false, if_true, Nat.lt_irrefl, gt_iff_lt]
    congr 1
    apply List.ext_getElem?
    intro i
    simp [emit, put_getElem?]
  · have key : ∀ k, k = min t.length (size - 1) → CMem.write (emit size ⟨blk, 0⟩ t).buf k (some 0) =
        some ((t.take (size - 1)).map some ++ some 0 :: blk.drop ((t.take (size - 1)).length + 1)) := by
      intro k hk
      have hl : (t.take (size - 1)).length = k := by rw [List.length_take]; omega
      rw [CMem.write_eq (by simp; omega)]
      congr 1
      apply List.ext_getElem?
      intro i
      rw [hl, List.getElem?_set, List.getElem?_append, List.length_map, hl]
      simp only [emit, put_getElem? size t blk 0 h, put_length]
      by_cases h1 : i < k
      · rw [if_neg (by omega), if_pos ⟨by omega, by omega, by omega⟩, if_pos h1]
        simp only [List.getElem?_map, List.getElem?_take, Nat.sub_zero]
        rw [if_pos (by omega)]
      · rw [if_neg h1]
        by_cases h2 : k = i
        · subst h2; rw [if_pos rfl, if_pos (by omega), Nat.sub_self]; rfl
        · rw [if_neg h2, if_neg (by omega)]
          obtain ⟨j, hj⟩ : ∃ j, i - k = j + 1 := ⟨i - k - 1, by omega⟩
          rw [hj, List.getElem?_cons_succ, List.getElem?_drop]
          congr 1; omega
    simp only [h0, if_false]
    by_cases h1 : t.length < size
    · rw [if_pos h1, key _ (by omega)]
    · rw [if_neg h1, if_pos (by omega), key _ (by omega)]

/-! ## Strings -/

theorem strlnLoop_eq {m : Bytes} {p : Int} {n : Nat} (hn : ∀ j, j < n → ∃ c, m[j]? = some c ∧ c ≠ 0 ∧ (p = -1 ∨ (j : Int) < p))
    {c : UInt8} (hc : m[n]? = some c) (hs : ¬(c ≠ 0 ∧ (p = -1 ∨ (n : Int) < p))) (hi : n ≤ 2147483647) :
    ∀ (k i : Nat), i ≤ n → n - i < k → strlnLoop m p k i = some n := by
  intro k
  induction k with
  | zero => intro i _ h; omega
  | succ k ih =>
    intro i hin hk
    rw [strlnLoop, CMem.read]
    by_cases he : i = n
    · subst he; rw [hc, Option.bind_some, if_neg hs]
    · obtain ⟨c', h1, h2, h3⟩ := hn i (by omega)
      rw [h1, Option.bind_some, if_pos ⟨h2, h3⟩, int32, if_pos (by omega), Option.bind_some]
      exact ih (i + 1) (by omega) (by omega)

theorem strOutLoop_eq {size : Nat} {m : Bytes} {p : Int} {n : Nat} (hn : ∀ j, j < n → ∃ c, m[j]? = some c ∧ c ≠ 0 ∧ (p = -1 ∨ (j : Int) < p))
    {c : UInt8} (hc : m[n]? = some c) (hs : ¬(c ≠ 0 ∧ (p = -1 ∨ (n : Int) < p))) :
    ∀ (k i : Nat) (o : Out), size ≤ o.buf.length → i ≤ n → n - i < k →
      strOutLoop size m (p == -1) k i (p - i) o = some (emit size o ((m.take n).drop i)) := by
  intro k
  induction k with
  | zero => intro i o _ _ h; omega
  | succ k ih =>
    intro i o ho hin hk
    rw [strOutLoop, CMem.read]
    have hiff : ∀ c : UInt8, ∀ j : Nat, (c ≠ 0 ∧ ((p == -1) = true ∨ p - (j : Int) > 0)) ↔ (c ≠ 0 ∧ (p = -1 ∨ (j : Int) < p)) := by
      intro c j
      simp only [beq_iff_eq]
      constructor
      · rintro ⟨h1, h2 | h2⟩
        · exact ⟨h1, .inl h2⟩
        · exact ⟨h1, .inr (by omega)⟩
      · rintro ⟨h1, h2 | h2⟩
        · exact ⟨h1, .inl h2⟩
        · exact ⟨h1, .inr (by omega)⟩
    by_cases he : i = n
    · subst he
      rw [hc, Option.bind_some, if_neg (by rw [hiff]; exact hs), List.drop_eq_nil_of_le (by rw [List.length_take]; omega), emit_nil]
    · obtain ⟨c', h1, h2, h3⟩ := hn i (by omega)
      rw [h1, Option.bind_some, if_pos ((hiff c' i).2 ⟨h2, h3⟩), outchar_eq ho, Option.bind_some]
      rw [show p - (i : Int) - 1 = p - ((i + 1 : Nat) : Int) by omega]
      rw [ih (i + 1) _ (by simpa using ho) (by omega) (by omega), ← emit_append]
      have hlt : i < (m.take n).length := by
        rw [List.length_take]
        have := (List.getElem?_eq_some_iff.1 h1).1
        omega
      rw [List.drop_eq_getElem_cons hlt]
      have : (m.take n)[i] = c' := by
        have := (List.getElem?_eq_some_iff.1 h1).2
        simp [this]
      rw [this]; rfl

/-- The precision as the code keeps it. -/
def precInt : Option Nat → Int
  | none => -1
  | some n => n

/-- The bytes of a string that are printed, as a prefix. -/
theorem str_prefix {m : Bytes} {p : Option Nat} {minus : Bool} {w : Nat} (hok : (Spec.Item.str m minus w p).ok) (hp : ∀ n, p = some n → n ≤ 2147483647) :
    ∃ n c, (match p with | some n => m.take n | none => m).takeWhile (· ≠ 0) = m.take n ∧ n ≤ m.length ∧ n ≤ 2147483647 ∧
      (∀ j, j < n → ∃ c, m[j]? = some c ∧ c ≠ 0 ∧ (precInt p = -1 ∨ (j : Int) < precInt p)) ∧
      m[n]? = some c ∧ ¬(c ≠ 0 ∧ (precInt p = -1 ∨ (n : Int) < precInt p)) := by
  have tw : ∀ l : Bytes, ∃ n, l.takeWhile (· ≠ 0) = l.take n ∧ n ≤ l.length ∧ (∀ j, j < n → ∃ c, l[j]? = some c ∧ c ≠ 0) ∧ (n = l.length ∨ l[n]? = some 0) := by
    intro l
    induction l with
    | nil => exact ⟨0, rfl, Nat.le_refl _, fun j h => by omega, .inl rfl⟩
    | cons c l ih =>
      obtain ⟨n, h1, h2, h3, h4⟩ := ih
      by_cases hc : c = 0
      · subst hc
        exact ⟨0, by simp, Nat.zero_le _, fun j h => by omega, .inr rfl⟩
      · refine ⟨n + 1, ?_, by simp only [List.length_cons]; omega, ?_, ?_⟩
        · rw [List.takeWhile_cons, if_pos (by simpa using hc), h1]; rfl
        · intro j hj
          cases j with
          | zero => exact ⟨c, rfl, hc⟩
          | succ j => exact h3 j (by omega)
        · rcases h4 with h4 | h4
          · exact .inl (by simp [h4])
          · exact .inr (by simpa using h4)
  cases p with
  | none =>
    obtain ⟨n, h1, h2, h3, h4⟩ := tw m
    simp only [Spec.Item.ok] at hok
    rcases hok with ⟨k, hk, hz⟩ | ⟨k, hk, _⟩
    · have hnk : n ≤ k := by
        rcases Nat.lt_or_ge k n with h | h
        · obtain ⟨c, hc, hc0⟩ := h3 k h
          rw [hz] at hc; cases hc; exact absurd rfl hc0
        · exact h
      have hlt := (List.getElem?_eq_some_iff.1 hz).1
      have h5 : m[n]? = some 0 := by
        rcases h4 with h4 | h4
        · omega
        · exact h4
      exact ⟨n, 0, h1, h2, by omega, fun j hj => (h3 j hj).imp fun c hc => ⟨hc.1, hc.2, .inl rfl⟩, h5, fun h => h.1 rfl⟩
    · cases hk
  | some q =>
    obtain ⟨n, h1, h2, h3, h4⟩ := tw (m.take q)
    have hq := hp q rfl
    simp only [List.length_take] at h2 h4
    have hnq : n ≤ q := by omega
    have hprop : ∀ j, j < n → ∃ c, m[j]? = some c ∧ c ≠ 0 ∧ (precInt (some q) = -1 ∨ (j : Int) < precInt (some q)) := by
      intro j hj
      obtain ⟨c, hc, hc0⟩ := h3 j hj
      rw [List.getElem?_take, if_pos (by omega)] at hc
      exact ⟨c, hc, hc0, .inr (by simp only [precInt]; omega)⟩
    have htake : m.take n = (m.take q).take n := by rw [List.take_take, Nat.min_eq_left hnq]
    simp only [Spec.Item.ok] at hok
    by_cases hnq' : n = q
    · -- stopped by the precision
      subst hnq'
      have hlen : n < m.length := by
        rcases hok with ⟨k, hk, hz⟩ | ⟨k, hk, hlt⟩
        · have hlt := (List.getElem?_eq_some_iff.1 hz).1
          rcases Nat.lt_or_ge k n with h | h
          · obtain ⟨c, hc, hc0, _⟩ := hprop k h
            rw [hz] at hc; cases hc; exact absurd rfl hc0
          · omega
        · cases hk; exact hlt
      refine ⟨n, m[n], by rw [htake]; exact h1, by omega, by omega, hprop, by simp [hlen], ?_⟩
      rintro ⟨_, h | h⟩ <;> simp only [precInt] at h <;> omega
    · -- stopped by the terminator
      have hz : m[n]? = some 0 := by
        rcases h4 with h4 | h4
        · exfalso
          have hnl : n = m.length := by omega
          rcases hok with ⟨k, hk, hz⟩ | ⟨k, hk, hlt⟩
          · have hlt := (List.getElem?_eq_some_iff.1 hz).1
            obtain ⟨c, hc, hc0, _⟩ := hprop k (by omega)
            rw [hz] at hc; cases hc; exact absurd rfl hc0
          · cases hk; omega
        · rw [List.getElem?_take, if_pos (by omega)] at h4; exact h4
      exact ⟨n, 0, by rw [htake]; exact h1, by omega, by omega, hprop, hz, fun h => h.1 rfl⟩

theorem fmtstr_ok {size : Nat} {o : Out} (ho : size ≤ o.buf.length) {m : Bytes} {p : Option Nat} {w : Nat} (hw : w ≤ 2147483647)
    (hp : ∀ n, p = some n → n ≤ 2147483647) {fl : Flags} (hok : (Spec.Item.str m fl.minus w p).ok) :
    fmtstr size o m w (precInt p) fl = some (emit size o (Spec.Item.str m fl.minus w p).text) := by
  obtain ⟨n, c, h1, h2, h3, h4, h5, h6⟩ := str_prefix hok hp
  have hl : (m.take n).length = n := by rw [List.length_take]; omega
  have hout : ∀ o' : Out, size ≤ o'.buf.length → strOutLoop size m (precInt p == -1) (m.length + 1) 0 (precInt p) o' = some (emit size o' (m.take n)) := by
    intro o' ho'
    have := strOutLoop_eq h4 h5 h6 (m.length + 1) 0 o' ho' (Nat.zero_le _) (by omega)
    simpa using this
  unfold fmtstr
  rw [strlnLoop_eq h4 h5 h6 h3 (m.length + 1) 0 (Nat.zero_le _) (by omega), Option.bind_some, int32, if_pos (by omega), Option.bind_some]
  have ht : (Spec.Item.str m fl.minus w p).text = Spec.inField fl.minus w (m.take n) := by
    rw [← h1]; cases p <;> rfl
  rw [ht]
  simp only [Spec.inField, hl]
  cases hm : fl.minus
  · simp only [Bool.false_eq_true, if_false]
    rw [outRepeat_eq _ _ _ ho, Option.bind_some, hout _ (by simpa using ho), Option.bind_some, outRepeat_eq _ _ _ (by simpa using ho), ← emit_append, ← emit_append]
    congr 2
    have e1 : (if (w : Int) - n < 0 then 0 else (w : Int) - n).toNat = w - n := by split <;> omega
    have e2 : (-(if (w : Int) - n < 0 then 0 else (w : Int) - n)).toNat = 0 := by split <;> omega
    simp [e1, e2]
  · simp only [if_true]
    rw [outRepeat_eq _ _ _ ho, Option.bind_some, hout _ (by simpa using ho), Option.bind_some, outRepeat_eq _ _ _ (by simpa using ho), ← emit_append, ← emit_append]
    congr 2
    have e1 : (- -(if (w : Int) - n < 0 then 0 else (w : Int) - n)).toNat = w - n := by split <;> omega
    have e2 : (-(if (w : Int) - n < 0 then 0 else (w : Int) - n)).toNat = 0 := by split <;> omega
    rw [e1, e2]
    simp

/-! ## Integers -/

theorem digit_char (caps : Bool) (d : Nat) (h : d < 16) :
    [digit caps d] = if caps then Spec.upper [UInt8.ofNat (Nat.digitChar d).toNat] else [UInt8.ofNat (Nat.digitChar d).toNat] := by
  have : d = 0 ∨ d = 1 ∨ d = 2 ∨ d = 3 ∨ d = 4 ∨ d = 5 ∨ d = 6 ∨ d = 7 ∨ d = 8 ∨ d = 9 ∨ d = 10 ∨ d = 11 ∨ d = 12 ∨ d = 13 ∨ d = 14 ∨ d = 15 := by omega
  cases caps <;> rcases this with h | h | h | h | h | h | h | h | h | h | h | h | h | h | h | h <;> subst h <;> decide

/-- The digits in the case wanted. -/
def casedNumeral (caps : Bool) (b n : Nat) : Bytes := if caps then Spec.upper (Spec.numeral b n) else Spec.numeral b n

theorem casedNumeral_lt {caps : Bool} {b n : Nat} (hb : b ≤ 16) (h : n < b) : casedNumeral caps b n = [digit caps n] := by
  have hd := digit_char caps n (by omega)
  unfold casedNumeral Spec.numeral
  rw [Nat.toDigits_of_lt_base h, hd]
  cases caps <;> rfl

theorem casedNumeral_ge {caps : Bool} {b n : Nat} (hb1 : 1 < b) (hb : b ≤ 16) (h : b ≤ n) : casedNumeral caps b n = casedNumeral caps b (n / b) ++ [digit caps (n % b)] := by
  have hd := digit_char caps (n % b) (by have := Nat.mod_lt n (show b > 0 by omega); omega)
  unfold casedNumeral Spec.numeral
  rw [Nat.toDigits_of_base_le hb1 h, hd]
  cases caps <;> simp only [Bool.false_eq_true, if_true, if_false, Spec.upper, List.map_append, List.map_cons, List.map_nil]

theorem convert_reverse {b : Nat} (caps : Bool) (hb1 : 1 < b) (hb : b ≤ 16) : ∀ (k v : Nat), v < b ^ k → 0 < k → (convert b caps k v).reverse = casedNumeral caps b v := by
  intro k
  induction k with
  | zero => intro v _ h; omega
  | succ k ih =>
    intro v hv _
    rw [convert]
    have hbv : v < b ↔ v / b = 0 := by rw [Nat.div_eq_zero_iff]; omega
    by_cases h : v / b = 0
    · rw [if_neg (by simp [h]), casedNumeral_lt hb (hbv.2 h), Nat.mod_eq_of_lt (hbv.2 h)]; rfl
    · have hbv' : b ≤ v := by omega
      rw [if_pos h, List.reverse_cons, ih _ ?_ ?_, ← casedNumeral_ge hb1 hb hbv']
      · rw [Nat.div_lt_iff_lt_mul (by omega), ← Nat.pow_succ]; exact hv
      · rcases Nat.eq_zero_or_pos k with hk | hk
        · subst hk; simp at hv; omega
        · exact hk

theorem convert_length_le (b : Nat) (caps : Bool) : ∀ k v, (convert b caps k v).length ≤ k := by
  intro k
  induction k with
  | zero => intro v; simp [convert]
  | succ k ih => intro v; rw [convert]; split <;> simp [ih]

theorem convert_length_pos (b : Nat) (caps : Bool) (k v : Nat) : 0 < (convert b caps (k + 1) v).length := by simp [convert]

theorem digitsLoop_eq {size : Nat} (ic : Bytes) : ∀ (pos : Nat) (o : Out), size ≤ o.buf.length → pos ≤ ic.length →
    digitsLoop size [] 0 ic pos o = some (emit size o (ic.take pos).reverse) := by
  intro pos
  induction pos with
  | zero => intro o _ _; simp [digitsLoop]
  | succ pos ih =>
    intro o ho hp
    rw [digitsLoop, CMem.read, List.getElem?_eq_getElem (by omega), Option.bind_some, outchar_eq ho, Option.bind_some, if_neg (by omega),
      ih _ (by simpa using ho) (by omega), ← emit_append]
    have ht : ic.take (pos + 1) = ic.take pos ++ [ic[pos]] := by rw [List.take_append_getElem]
    rw [ht, List.reverse_append]
    rfl

/-- `fmtint` in a locale without a thousands separator. -/
theorem fmtint_raw {size : Nat} {o : Out} (ho : size ≤ o.buf.length) {v w p pr z s : Int} {b u : Nat} {fl : Flags} {ic : Bytes} {hx sg : UInt8}
    (hu : uvalueOf v fl = some u) (hsg : signOf v fl = sg) (hic : convert b fl.up 43 u = ic)
    (hpr : (if fl.num && u != 0 && b == 8 && decide (p ≤ ic.length) then (ic.length : Int) + 1 else p) = pr)
    (hhx : (if fl.num && u != 0 && b == 16 then (if fl.up then 88 else 120) else 0 : UInt8) = hx)
    (hz : pr - ic.length = z) (hs : w - (if pr ≥ ic.length then pr else ic.length) - (if sg ≠ 0 then 1 else 0) - (if hx ≠ 0 then 2 else 0) = s)
    (rz : -2147483648 ≤ z ∧ z ≤ 2147483647) (rs : -2147483648 ≤ s ∧ s ≤ 2147483647)
    (rzs : fl.minus = false → fl.zero = true → p = -1 → max z 0 + max s 0 ≤ 2147483647) :
    fmtint [] size o v b w p fl = some (emit size o (
      (if fl.minus = true ∨ (fl.zero = true ∧ p = -1) then [] else List.replicate s.toNat 32) ++ ((if sg ≠ 0 then [sg] else []) ++ (if hx ≠ 0 then [48, hx] else [])) ++
      (List.replicate (if fl.minus = false ∧ fl.zero = true ∧ p = -1 then z.toNat + s.toNat else z.toNat) 48 ++ ic.reverse) ++
      (if fl.minus = true then List.replicate s.toNat 32 else []))) := by
  unfold fmtint
  rw [hu, Option.bind_some]
  simp only [hsg, hic, hpr, hhx]
  have hsep : (if fl.quote then getnumsep [] ic.length else 0) = 0 := by split <;> simp [getnumsep]
  simp only [hsep, Int.natCast_zero, Int.sub_zero, hz, hs]
  rw [int32, if_pos rz, Option.bind_some, int32, if_pos rs, Option.bind_some]
  have ezp : ∃ zp : Int, (if fl.minus then (if z < 0 then 0 else z) else if fl.zero && (p == -1) then (if z < 0 then 0 else z) + (if s < 0 then 0 else s) else if z < 0 then 0 else z) = zp ∧
      zp.toNat = (if fl.minus = false ∧ fl.zero = true ∧ p = -1 then z.toNat + s.toNat else z.toNat) ∧ 0 ≤ zp ∧ zp ≤ 2147483647 := by
    refine ⟨_, rfl, ?_⟩
    cases hm : fl.minus <;> cases hz0 : fl.zero <;> by_cases hp : p = -1 <;> simp [hp] <;> first
      | (have := rzs hm hz0 hp; refine ⟨?_, ?_, ?_⟩ <;> (repeat' split) <;> omega)
      | (refine ⟨?_, ?_, ?_⟩ <;> (repeat' split) <;> omega)
  obtain ⟨zp, h1, h2, h3, h4⟩ := ezp
  rw [h1, int32, if_pos (by omega), Option.bind_some]
  have esp : ∃ sp : Int, (if fl.minus then -(if s < 0 then 0 else s) else if fl.zero && (p == -1) then 0 else if s < 0 then 0 else s) = sp ∧
      List.replicate sp.toNat (32 : UInt8) = (if fl.minus = true ∨ (fl.zero = true ∧ p = -1) then [] else List.replicate s.toNat 32) ∧
      List.replicate (-sp).toNat (32 : UInt8) = (if fl.minus = true then List.replicate s.toNat 32 else []) := by
    refine ⟨_, rfl, ?_⟩
    have e0 : (if s < 0 then 0 else s).toNat = s.toNat := by split <;> omega
    have e1 : (-(if s < 0 then 0 else s)).toNat = 0 := by split <;> omega
    cases hm : fl.minus <;> cases hz0 : fl.zero <;> by_cases hp : p = -1 <;> simp [hp, e0, e1]
  obtain ⟨sp, h5, h6, h7⟩ := esp
  simp only [h5]
  rw [outRepeat_eq _ _ _ ho, Option.bind_some, h6]
  generalize (if fl.minus = true ∨ (fl.zero = true ∧ p = -1) then [] else List.replicate s.toNat (32 : UInt8)) = A
  have hsign : ∀ o' : Out, size ≤ o'.buf.length → (if sg ≠ 0 then outchar size o' sg else some o') = some (emit size o' (if sg ≠ 0 then [sg] else [])) := by
    intro o' ho'
    split
    · rw [outchar_eq ho']
    · simp
  have hhex : ∀ o' : Out, size ≤ o'.buf.length → (if hx ≠ 0 then (outchar size o' 48).bind fun o => outchar size o hx else some o') = some (emit size o' (if hx ≠ 0 then [48, hx] else [])) := by
    intro o' ho'
    split
    · rw [outchar_eq ho', Option.bind_some, outchar_eq (by simpa using ho'), ← emit_append]; rfl
    · simp
  rw [hsign _ (by simpa using ho), Option.bind_some, hhex _ (by simpa using ho), Option.bind_some, outRepeat_eq _ _ _ (by simpa using ho), Option.bind_some,
    digitsLoop_eq _ _ _ (by simpa using ho) (Nat.le_refl _), Option.bind_some, outRepeat_eq _ _ _ (by simpa using ho), h2, h7, List.take_length]
  simp only [← emit_append, List.append_assoc]

theorem digit_ne_48 (caps : Bool) (d : Nat) (h : d < 16) (h0 : d ≠ 0) : digit caps d ≠ 48 := by
  have : d = 1 ∨ d = 2 ∨ d = 3 ∨ d = 4 ∨ d = 5 ∨ d = 6 ∨ d = 7 ∨ d = 8 ∨ d = 9 ∨ d = 10 ∨ d = 11 ∨ d = 12 ∨ d = 13 ∨ d = 14 ∨ d = 15 := by omega
  cases caps <;> rcases this with h | h | h | h | h | h | h | h | h | h | h | h | h | h | h <;> subst h <;> decide

theorem casedNumeral_ne_nil {caps : Bool} {b : Nat} (hb1 : 1 < b) (hb : b ≤ 16) (n : Nat) : casedNumeral caps b n ≠ [] := by
  rcases Nat.lt_or_ge n b with h | h
  · rw [casedNumeral_lt hb h]; simp
  · rw [casedNumeral_ge hb1 hb h]; simp

theorem casedNumeral_head {caps : Bool} {b : Nat} (hb1 : 1 < b) (hb : b ≤ 16) : ∀ n, n ≠ 0 → (casedNumeral caps b n).head? ≠ some 48 := by
  intro n
  induction n using Nat.strongRecOn with
  | ind n ih =>
    intro h0
    rcases Nat.lt_or_ge n b with h | h
    · rw [casedNumeral_lt hb h]
      simp only [List.head?_cons, ne_eq, Option.some.injEq]
      exact digit_ne_48 caps n (by omega) h0
    · rw [casedNumeral_ge hb1 hb h]
      have := ih (n / b) (Nat.div_lt_self (by omega) hb1) (by rw [Nat.div_ne_zero_iff]; omega)
      have hne := casedNumeral_ne_nil (caps := caps) hb1 hb (n / b)
      cases hx : casedNumeral caps b (n / b) with
      | nil => exact absurd hx hne
      | cons a l => rw [hx] at this; exact this

theorem casedNumeral_zero {caps : Bool} {b : Nat} (hb1 : 1 < b) (hb : b ≤ 16) : casedNumeral caps b 0 = [48] := by
  rw [casedNumeral_lt hb (by omega)]; rfl

theorem base_bounds (c : Spec.IntConv) : 1 < Spec.base c ∧ Spec.base c ≤ 16 := by cases c <;> decide

/-- The number of leading zeros the code adds. -/
def leadZeros (c : Spec.IntConv) (u : Nat) (num : Bool) (p : Option Nat) (pos : Nat) : Int :=
  (if num && u != 0 && Spec.base c == 8 && decide (precInt p ≤ pos) then (pos : Int) + 1 else precInt p)

theorem digits_eq {c : Spec.IntConv} {u : Nat} {num : Bool} {p : Option Nat} (hok : p = some 0 → u = 0 → c = .o ∧ num = true) :
    Spec.digits c u num p =
      List.replicate (leadZeros c u num p (casedNumeral (decide (c = .X)) (Spec.base c) u).length - ((casedNumeral (decide (c = .X)) (Spec.base c) u).length : Int)).toNat 48
        ++ casedNumeral (decide (c = .X)) (Spec.base c) u := by
  obtain ⟨hb1, hb⟩ := base_bounds c
  unfold Spec.digits leadZeros
  by_cases hu : u = 0
  · subst hu
    rw [casedNumeral_zero hb1 hb]
    simp only [if_true, bne_self_eq_false, Bool.and_false, Bool.false_and, Bool.false_eq_true, if_false, List.length_singleton, Spec.zeroPad]
    have hup : (if c = .X then Spec.upper [] else []) = [] := by split <;> rfl
    simp only [hup, List.length_nil, Nat.sub_zero, List.append_nil]
    cases p with
    | none => simp [precInt]
    | some n =>
      rcases Nat.eq_zero_or_pos n with h0 | h0
      · subst h0
        obtain ⟨h1, h2⟩ := hok rfl rfl
        simp [h1, h2, precInt]
      · obtain ⟨k, rfl⟩ : ∃ k, n = k + 1 := ⟨n - 1, by omega⟩
        simp only [Option.getD_some, List.replicate_succ, List.head?_cons, ne_eq, not_true_eq_false, and_false, if_false, precInt]
        rw [show (((k + 1 : Nat) : Int) - ((1 : Nat) : Int)).toNat = k by omega, ← List.replicate_succ, List.replicate_succ']
  · have hcase : (if c = .X then Spec.upper (if u = 0 then [] else Spec.numeral (Spec.base c) u) else (if u = 0 then [] else Spec.numeral (Spec.base c) u)) =
        casedNumeral (decide (c = .X)) (Spec.base c) u := by
      simp only [hu, if_false, casedNumeral, decide_eq_true_eq]
    simp only [hcase]
    have hne := casedNumeral_ne_nil (caps := decide (c = .X)) hb1 hb u
    have hh := casedNumeral_head (caps := decide (c = .X)) hb1 hb u hu
    generalize casedNumeral (decide (c = .X)) (Spec.base c) u = N at hne hh ⊢
    have hN : 0 < N.length := List.length_pos_iff.2 hne
    have hu' : (u != 0) = true := by simp [hu]
    have hq : ∀ P : Int, P = precInt p → (P - (N.length : Int)).toNat = p.getD 1 - N.length := by
      intro P hP; subst hP
      cases p with
      | none => simp only [precInt, Option.getD_none]; omega
      | some n => simp only [precInt, Option.getD_some]; omega
    have hzp : Spec.zeroPad (p.getD 1) N = List.replicate (p.getD 1 - N.length) 48 ++ N := rfl
    simp only [hu', Bool.and_true]
    rw [hzp]
    by_cases ho : c = .o ∧ num = true
    · obtain ⟨rfl, rfl⟩ := ho
      simp only [Spec.base, beq_self_eq_true, Bool.and_true, Bool.true_and, decide_eq_true_eq, true_and]
      by_cases hp : precInt p ≤ (N.length : Int)
      · rw [if_pos hp]
        have h0 : p.getD 1 - N.length = 0 := by rw [← hq _ rfl]; omega
        rw [h0, List.replicate_zero, List.nil_append, if_pos hh]
        rw [show ((N.length : Int) + 1 - (N.length : Int)).toNat = 1 by omega]; rfl
      · rw [if_neg hp]
        rw [hq _ rfl]
        obtain ⟨k, hk⟩ : ∃ k, p.getD 1 - N.length = k + 1 := by
          have := hq _ rfl
          exact ⟨p.getD 1 - N.length - 1, by omega⟩
        rw [hk, List.replicate_succ]
        simp
    · have : (num && (Spec.base c == 8) && decide (precInt p ≤ (N.length : Int))) = false := by
        cases c <;> cases num <;> simp_all [Spec.base]
      simp only [this, Bool.false_eq_true, if_false]
      have hn : ∀ t : Bytes, ¬(c = .o ∧ num = true ∧ t.head? ≠ some 48) := fun t h => ho ⟨h.1, h.2.1⟩
      rw [if_neg (hn _)]
      rw [hq _ rfl]

/-- The field logic of `fmtint` is that of C99. -/
theorem field_eq (minus zero : Bool) (p : Option Nat) (w pos : Nat) (pr : Int) (pre N ds : Bytes) (hN : N.length = pos)
    (hds : ds = List.replicate (pr - pos).toNat 48 ++ N) :
    (if minus = true ∨ (zero = true ∧ precInt p = -1) then [] else List.replicate ((w : Int) - (if pr ≥ pos then pr else pos) - pre.length).toNat 32) ++ pre ++
      (List.replicate (if minus = false ∧ zero = true ∧ precInt p = -1 then (pr - pos).toNat + ((w : Int) - (if pr ≥ pos then pr else pos) - pre.length).toNat else (pr - pos).toNat) 48 ++ N) ++
      (if minus = true then List.replicate ((w : Int) - (if pr ≥ pos then pr else pos) - pre.length).toNat 32 else []) =
    (if zero = true ∧ minus = false ∧ p = none then pre ++ Spec.zeroPad (w - pre.length) ds else Spec.inField minus w (pre ++ ds)) := by
  have hdl : ds.length = (pr - pos).toNat + pos := by rw [hds]; simp [hN]
  have hp : precInt p = -1 ↔ p = none := by
    cases p with
    | none => simp [precInt]
    | some n => simp [precInt]
  have hk : ((w : Int) - (if pr ≥ pos then pr else pos) - pre.length).toNat = w - (pre.length + ds.length) := by
    rw [hdl]; split <;> omega
  rw [hk]
  simp only [hp]
  cases hm : minus
  · by_cases hz : zero = true ∧ p = none
    · rw [if_pos (.inr hz), if_pos ⟨rfl, hz⟩, if_neg (by simp), if_pos ⟨hz.1, rfl, hz.2⟩]
      simp only [Spec.zeroPad, List.nil_append, List.append_nil]
      congr 1
      rw [show w - pre.length - ds.length = w - (pre.length + ds.length) by omega, hds, ← List.append_assoc, List.replicate_append_replicate]
      congr 2; omega
    · rw [if_neg (by simp only [Bool.false_eq_true, false_or]; exact hz), if_neg (fun h => hz ⟨h.2.1, h.2.2⟩), if_neg (by simp), if_neg (fun h => hz ⟨h.1, h.2.2⟩)]
      simp only [Spec.inField, Bool.false_eq_true, if_false, List.append_nil, List.length_append, ← hds, List.append_assoc]
  · rw [if_pos (.inl rfl), if_neg (by simp), if_pos rfl, if_neg (by simp)]
    simp only [Spec.inField, if_true, List.nil_append, List.length_append, ← hds]

theorem fmtint_ok {size : Nat} {o : Out} (ho : size ≤ o.buf.length) {c : Spec.IntConv} {v V : Int} {w : Nat} {p : Option Nat} {fl : Flags}
    (hw : w ≤ 2147483647) (hp : ∀ n, p = some n → n ≤ 2147483647) (hup : fl.up = decide (c = .X))
    (hu : uvalueOf V fl = some v.natAbs) (hlt : v.natAbs < 2 ^ 64)
    (hsg : (if signOf V fl ≠ 0 then [signOf V fl] else []) = Spec.sign c v fl.plus fl.space)
    (hun : fl.unsigned = false → c = .d ∨ c = .i)  (hun' : fl.unsigned = true → ¬(c = .d ∨ c = .i))
    (hok : (Spec.Item.int c v fl.minus fl.plus fl.space fl.num fl.zero w p).ok) :
    fmtint [] size o V (Spec.base c) w (precInt p) fl = some (emit size o (Spec.Item.int c v fl.minus fl.plus fl.space fl.num fl.zero w p).text) := by
  obtain ⟨hok1, hok2, hok3⟩ := hok
  obtain ⟨hb1, hb⟩ := base_bounds c
  have hpow : v.natAbs < Spec.base c ^ 43 := by
    refine Nat.lt_trans hlt ?_
    cases c <;> decide
  have hrev := convert_reverse fl.up hb1 hb 43 v.natAbs hpow (by omega)
  have hle := convert_length_le (Spec.base c) fl.up 43 v.natAbs
  have hpos := convert_length_pos (Spec.base c) fl.up 42 v.natAbs
  have hlen : (casedNumeral (decide (c = .X)) (Spec.base c) v.natAbs).length = (convert (Spec.base c) fl.up 43 v.natAbs).length := by
    rw [← hup, ← hrev, List.length_reverse]
  have hdig := digits_eq (c := c) (u := v.natAbs) (num := fl.num) (p := p) (fun h1 h2 => hok2 h1 (by omega))
  rw [hlen, ← hup, ← hrev] at hdig
  have hpr : -1 ≤ precInt p ∧ precInt p ≤ 2147483647 := by
    cases p with
    | none => simp [precInt]
    | some n => have := hp n rfl; simp only [precInt]; omega
  -- the prefix
  have hhex : ∀ hx : UInt8, (if fl.num && v.natAbs != 0 && Spec.base c == 16 then (if fl.up then 88 else 120) else 0 : UInt8) = hx →
      (if hx ≠ 0 then [48, hx] else []) = Spec.hexPrefix c v fl.num ∧ (hx ≠ 0 → fl.num = true ∧ (c = .x ∨ c = .X)) := by
    intro hx h
    subst h
    rw [hup]
    have hv0 : (v.natAbs != 0) = decide (v ≠ 0) := by
      by_cases h : v = 0
      · subst h; rfl
      · have : v.natAbs ≠ 0 := by omega
        simp [this, h]
    rw [hv0]
    by_cases h : v = 0 <;> cases fl.num <;> cases c <;> simp [Spec.hexPrefix, h, Spec.base] <;> decide
  obtain ⟨hh1, hh2⟩ := hhex _ rfl
  generalize hhx : (if fl.num && v.natAbs != 0 && Spec.base c == 16 then (if fl.up then 88 else 120) else 0 : UInt8) = hx at hh1 hh2
  generalize hsgd : signOf V fl = sg at hsg
  have hprd : (if fl.num && v.natAbs != 0 && Spec.base c == 8 && decide (precInt p ≤ ((convert (Spec.base c) fl.up 43 v.natAbs).length : Int)) then
      ((convert (Spec.base c) fl.up 43 v.natAbs).length : Int) + 1 else precInt p) = leadZeros c v.natAbs fl.num p (convert (Spec.base c) fl.up 43 v.natAbs).length := rfl
  have hlz : leadZeros c v.natAbs fl.num p (convert (Spec.base c) fl.up 43 v.natAbs).length = precInt p ∨
      leadZeros c v.natAbs fl.num p (convert (Spec.base c) fl.up 43 v.natAbs).length = (convert (Spec.base c) fl.up 43 v.natAbs).length + 1 := by
    unfold leadZeros; split
    · exact .inr rfl
    · exact .inl rfl
  generalize hic : convert (Spec.base c) fl.up 43 v.natAbs = ic at *
  generalize hlzd : leadZeros c v.natAbs fl.num p ic.length = pr at *
  have hsx : sg ≠ 0 → hx ≠ 0 → False := by
    intro h1 h2
    obtain ⟨_, h3⟩ := hh2 h2
    by_cases hu1 : fl.unsigned = true
    · apply h1; rw [← hsgd, signOf, if_pos hu1]
    · rcases hun (by simpa using hu1) with h | h <;> rcases h3 with h3 | h3 <;> rw [h] at h3 <;> cases h3
  have hmax : (pr : Int) ≤ 2147483647 ∧ -1 ≤ pr := by omega
  have hhp : hx ≠ 0 → pr = 2147483647 → 0 < w := by
    intro h1 h2
    obtain ⟨h3, h4⟩ := hh2 h1
    have h5 : precInt p = 2147483647 := by omega
    cases p with
    | none => simp [precInt] at h5
    | some n => simp only [precInt] at h5; exact hok3 h3 h4 (by congr 1; omega)
  rw [fmtint_raw ho hu hsgd hic hprd hhx rfl rfl ⟨by omega, by omega⟩ ?_ ?_]
  · congr 2
    have hpl : ((if sg ≠ 0 then [sg] else []) ++ (if hx ≠ 0 then [48, hx] else []) : Bytes).length = (if sg ≠ 0 then 1 else 0) + (if hx ≠ 0 then 2 else 0) := by
      rw [List.length_append]; split <;> split <;> rfl
    have := field_eq fl.minus fl.zero p w ic.length pr ((if sg ≠ 0 then [sg] else []) ++ (if hx ≠ 0 then [48, hx] else [])) ic.reverse (Spec.digits c v.natAbs fl.num p) (by simp) hdig
    have hw' : ∀ M : Int, (w : Int) - M - (if sg ≠ 0 then 1 else 0) - (if hx ≠ 0 then 2 else 0) = (w : Int) - M - (((if sg ≠ 0 then [sg] else []) ++ (if hx ≠ 0 then [48, hx] else []) : Bytes).length : Int) := by
      intro M; rw [hpl]; split <;> split <;> simp <;> omega
    rw [hw']
    rw [this, hsg, hh1]
    rfl
  · by_cases h1 : sg ≠ 0
    · have h2 : ¬ (hx ≠ 0) := fun h => hsx h1 h
      rw [if_pos h1, if_neg h2]
      split <;> omega
    · rw [if_neg h1]
      by_cases h2 : hx ≠ 0
      · rw [if_pos h2]
        have := hhp h2
        split <;> omega
      · rw [if_neg h2]; split <;> omega
  · intro _ _ h
    have hpr0 : pr = -1 ∨ pr = ic.length + 1 := by omega
    have h3 : (0 : Int) ≤ (if sg ≠ 0 then 1 else 0) := by split <;> omega
    have h4 : (0 : Int) ≤ (if hx ≠ 0 then 2 else 0) := by split <;> omega
    split <;> omega

/-! ## The format -/

/-- The state inside a directive. -/
def dst (st : State) (fl : Flags) (w p : Int) (cf : Mod) (as : List Arg) : St :=
  { state := st, flags := fl, width := w, precision := p, cflags := cf, args := as }

theorem step_flags {size : Nat} {fl : Flags} {w p : Int} {cf : Mod} {as : List Arg} {o : Out} {ch : UInt8} :
    step [] size (dst .flags fl w p cf as) o ch = flagsCase [] size (dst .flags fl w p cf as) o ch := rfl
theorem step_width {size : Nat} {fl : Flags} {w p : Int} {cf : Mod} {as : List Arg} {o : Out} {ch : UInt8} :
    step [] size (dst .width fl w p cf as) o ch = widthCase [] size (dst .width fl w p cf as) o ch := rfl
theorem step_prec {size : Nat} {fl : Flags} {w p : Int} {cf : Mod} {as : List Arg} {o : Out} {ch : UInt8} :
    step [] size (dst .precision fl w p cf as) o ch = precCase [] size (dst .precision fl w p cf as) o ch := rfl
theorem step_mod {size : Nat} {fl : Flags} {w p : Int} {cf : Mod} {as : List Arg} {o : Out} {ch : UInt8} :
    step [] size (dst .mod fl w p cf as) o ch = modCase [] size (dst .mod fl w p cf as) o ch := rfl
theorem step_conv {size : Nat} {fl : Flags} {w p : Int} {cf : Mod} {as : List Arg} {o : Out} {ch : UInt8} :
    step [] size (dst .conv fl w p cf as) o ch = convCase [] size (dst .conv fl w p cf as) o ch := rfl

theorem run_step {size : Nat} {ch : UInt8} {f : Bytes} {s s' : St} {o o' : Out} (h : step [] size s o ch = some (s', o')) (hov : s'.overflow = false) :
    run [] size (ch :: f) s o = run [] size f s' o' := by
  rw [run, h, Option.bind_some, if_neg (by simp [hov])]

theorem run_same {size : Nat} {ch : UInt8} {f : Bytes} {s s' : St} {o : Out} (h : step [] size s o ch = step [] size s' o ch) :
    run [] size (ch :: f) s o = run [] size (ch :: f) s' o := by rw [run, run, h]

def applyFlag (fl : Flags) : Spec.Flag → Flags
  | .minus => { fl with minus := true } | .plus => { fl with plus := true } | .space => { fl with space := true }
  | .num => { fl with num := true } | .zero => { fl with zero := true } | .quote => { fl with quote := true }

theorem run_flags {size : Nat} {f : Bytes} {as : List Arg} {o : Out} : ∀ (fs : List Spec.Flag) (fl : Flags),
    run [] size (fs.map Spec.Flag.byte ++ f) (dst .flags fl 0 (-1) .none as) o = run [] size f (dst .flags (fs.foldl applyFlag fl) 0 (-1) .none as) o := by
  intro fs
  induction fs with
  | nil => intro fl; rfl
  | cons x fs ih =>
    intro fl
    rw [List.map_cons, List.cons_append, run_step (s' := dst .flags (applyFlag fl x) 0 (-1) .none as) (o' := o) ?_ rfl, ih, List.foldl_cons]
    cases x <;> rfl

theorem foldl_applyFlag : ∀ (fs : List Spec.Flag) (fl : Flags), fs.foldl applyFlag fl =
    { fl with minus := fl.minus || fs.contains .minus, plus := fl.plus || fs.contains .plus, space := fl.space || fs.contains .space,
              num := fl.num || fs.contains .num, zero := fl.zero || fs.contains .zero, quote := fl.quote || fs.contains .quote } := by
  intro fs
  induction fs with
  | nil => intro fl; simp
  | cons x fs ih =>
    intro fl
    rw [List.foldl_cons, ih]
    cases x <;> simp [applyFlag, List.contains_cons] <;> decide

theorem digit_isDigit (d : Fin 10) : isDigit (UInt8.ofNat (48 + d.val)) = true := by revert d; decide
theorem digit_toNat (d : Fin 10) : ((UInt8.ofNat (48 + d.val)).toNat : Int) - 48 = d.val := by revert d; decide
theorem digit_notFlag (d : Fin 10) (h : d ≠ 0) : UInt8.ofNat (48 + d.val) ≠ 45 ∧ UInt8.ofNat (48 + d.val) ≠ 43 ∧ UInt8.ofNat (48 + d.val) ≠ 32 ∧
    UInt8.ofNat (48 + d.val) ≠ 35 ∧ UInt8.ofNat (48 + d.val) ≠ 48 ∧ UInt8.ofNat (48 + d.val) ≠ 39 := by revert d; decide

/-- Reading on with a numeral. -/
def numVal (v : Nat) (ds : Spec.Numeral) : Nat := ds.foldl (fun v d => 10 * v + d.val) v

theorem le_numVal : ∀ (ds : Spec.Numeral) (v : Nat), v ≤ numVal v ds := by
  intro ds
  induction ds with
  | nil => intro v; exact Nat.le_refl _
  | cons d ds ih => intro v; have := ih (10 * v + d.val); simp only [numVal, List.foldl_cons] at this ⊢; omega

theorem widthCase_digit {size : Nat} {s : St} {o : Out} (d : Fin 10) (v : Nat) (hs : s.width = v) (hv : 10 * v + d.val ≤ 2147483647) :
    widthCase [] size s o (UInt8.ofNat (48 + d.val)) = some ({ s with state := .width, width := ((10 * v + d.val : Nat) : Int) }, o) := by
  unfold widthCase
  simp only [digit_isDigit, if_true, digit_toNat, hs]
  have hd := d.isLt
  rw [if_neg (by omega)]
  norm_cast

theorem precCase_digit {size : Nat} {s : St} {o : Out} (d : Fin 10) (v : Nat) (hs : (if s.precision = -1 then 0 else s.precision) = v) (hv : 10 * v + d.val ≤ 2147483647) :
    precCase [] size s o (UInt8.ofNat (48 + d.val)) = some ({ s with state := .precision, precision := ((10 * v + d.val : Nat) : Int) }, o) := by
  unfold precCase
  simp only [digit_isDigit, if_true, digit_toNat, hs]
  have hd := d.isLt
  rw [if_neg (by omega)]
  norm_cast

theorem run_widthDigits {size : Nat} {f : Bytes} {as : List Arg} {o : Out} {fl : Flags} : ∀ (ds : Spec.Numeral) (v : Nat), numVal v ds ≤ 2147483647 →
    run [] size (ds.bytes ++ f) (dst .width fl v (-1) .none as) o = run [] size f (dst .width fl (numVal v ds) (-1) .none as) o := by
  intro ds
  induction ds with
  | nil => intro v _; rfl
  | cons d ds ih =>
    intro v hv
    have hle := le_numVal ds (10 * v + d.val)
    have hv' : numVal (10 * v + d.val) ds ≤ 2147483647 := hv
    rw [Spec.Numeral.bytes, List.map_cons, List.cons_append,
      run_step (s' := dst .width fl ((10 * v + d.val : Nat) : Int) (-1) .none as) (o' := o) (by rw [step_width, widthCase_digit d v rfl (by omega)]; rfl) rfl]
    exact ih _ hv'

theorem run_precDigits {size : Nat} {f : Bytes} {as : List Arg} {o : Out} {fl : Flags} {w : Int} : ∀ (ds : Spec.Numeral) (v : Nat), numVal v ds ≤ 2147483647 →
    run [] size (ds.bytes ++ f) (dst .precision fl w v .none as) o = run [] size f (dst .precision fl w (numVal v ds) .none as) o := by
  intro ds
  induction ds with
  | nil => intro v _; rfl
  | cons d ds ih =>
    intro v hv
    have hle := le_numVal ds (10 * v + d.val)
    have hv' : numVal (10 * v + d.val) ds ≤ 2147483647 := hv
    rw [Spec.Numeral.bytes, List.map_cons, List.cons_append,
      run_step (s' := dst .precision fl w ((10 * v + d.val : Nat) : Int) .none as) (o' := o)
        (by rw [step_prec, precCase_digit d v (by show (if (v : Int) = -1 then 0 else (v : Int)) = v; rw [if_neg (by omega)]) (by omega)]; rfl) rfl]
    exact ih _ hv'

theorem wrap_eq (b v : Nat) (hb : 0 < b) : wrap b v = (BitVec.ofNat b v).toInt := by
  obtain ⟨k, rfl⟩ : ∃ k, b = k + 1 := ⟨b - 1, by omega⟩
  unfold wrap
  rw [BitVec.toInt_eq_toNat_cond, BitVec.toNat_ofNat]
  have h2 : 2 ^ (k + 1) = 2 * 2 ^ k := by rw [Nat.pow_succ]; omega
  have : (v % 2 ^ (k + 1) < 2 ^ (k + 1 - 1)) ↔ 2 * (v % 2 ^ (k + 1)) < 2 ^ (k + 1) := by
    rw [Nat.add_sub_cancel]; omega
  by_cases h : 2 * (v % 2 ^ (k + 1)) < 2 ^ (k + 1)
  · rw [if_pos h, if_pos (this.2 h)]
  · rw [if_neg h, if_neg (fun x => h (this.1 x))]

theorem bv32_bounds (v : Nat) : -2147483648 ≤ (BitVec.ofNat 32 v).toInt ∧ (BitVec.ofNat 32 v).toInt ≤ 2147483647 := by
  have h1 := BitVec.le_toInt (BitVec.ofNat 32 v)
  have h2 := BitVec.toInt_lt (x := BitVec.ofNat 32 v)
  simp at h1 h2
  omega

/-- A character that can follow a width. -/
def Post (ch : UInt8) : Prop := isDigit ch = false ∧ ch ≠ 42 ∧ ch ≠ 45 ∧ ch ≠ 43 ∧ ch ≠ 32 ∧ ch ≠ 35 ∧ ch ≠ 48 ∧ ch ≠ 39

theorem widthCase_post {size : Nat} {s : St} {o : Out} {ch : UInt8} (h : Post ch) : widthCase [] size s o ch = dotCase [] size s o ch := by
  unfold widthCase
  rw [if_neg (by simp [h.1]), if_neg h.2.1]

theorem flagsCase_post {size : Nat} {s : St} {o : Out} {ch : UInt8} (h : Post ch) : flagsCase [] size s o ch = dotCase [] size s o ch := by
  unfold flagsCase
  obtain ⟨h1, h2, h3, h4, h5, h6, h7, h8⟩ := h
  rw [if_neg h3, if_neg h4, if_neg h5, if_neg h6, if_neg h7, if_neg h8, widthCase_post ⟨h1, h2, h3, h4, h5, h6, h7, h8⟩]

theorem run_width {size : Nat} {ch : UInt8} {f : Bytes} (hch : Post ch) {W : Spec.Field} (hW : ∀ n, W = .lit n → ∃ h t, n = h :: t ∧ h ≠ 0)
    {as as' : List Arg} {w : Nat} {left : Bool} (hr : Spec.resolveWidth W as = some (w, left, as')) (fl : Flags) (o : Out) :
    run [] size (Spec.widthBytes W ++ ch :: f) (dst .flags fl 0 (-1) .none as) o =
      run [] size (ch :: f) (dst .dot (if left then { fl with minus := true } else fl) w (-1) .none as') o ∧ w ≤ 2147483647 := by
  cases W with
  | absent =>
    simp only [Spec.resolveWidth, Option.some.injEq, Prod.mk.injEq] at hr
    obtain ⟨rfl, rfl, rfl⟩ := hr
    refine ⟨?_, by omega⟩
    refine run_same ?_
    show flagsCase [] size _ o ch = dotCase [] size _ o ch
    rw [flagsCase_post hch]; rfl
  | lit n =>
    obtain ⟨d, t, rfl, hd⟩ := hW n rfl
    simp only [Spec.resolveWidth] at hr
    by_cases hv : Spec.Numeral.value (d :: t) ≤ 2147483647
    · rw [if_pos hv] at hr
      simp only [Option.some.injEq, Prod.mk.injEq] at hr
      obtain ⟨rfl, rfl, rfl⟩ := hr
      refine ⟨?_, hv⟩
      have hv' : numVal (10 * 0 + d.val) t ≤ 2147483647 := hv
      have hle := le_numVal t (10 * 0 + d.val)
      obtain ⟨h1, h2, h3, h4, h5, h6⟩ := digit_notFlag d hd
      rw [Spec.widthBytes, Spec.Numeral.bytes, List.map_cons, List.cons_append,
        run_step (s' := dst .width fl ((10 * 0 + d.val : Nat) : Int) (-1) .none as) (o' := o) ?_ rfl]
      · have := run_widthDigits (size := size) (f := ch :: f) (as := as) (o := o) (fl := fl) t (10 * 0 + d.val) hv'
        refine this.trans (run_same ?_)
        show widthCase [] size _ o ch = dotCase [] size _ o ch
        rw [widthCase_post hch]; rfl
      · show flagsCase [] size _ o _ = _
        unfold flagsCase
        rw [if_neg h1, if_neg h2, if_neg h3, if_neg h4, if_neg h5, if_neg h6]
        exact widthCase_digit d 0 rfl (by omega)
    · rw [if_neg hv] at hr; cases hr
  | star =>
    cases as with
    | nil => simp [Spec.resolveWidth] at hr
    | cons a as =>
      cases a with
      | w32 v =>
        have hb := bv32_bounds v
        simp only [Spec.resolveWidth] at hr
        by_cases hmin : (BitVec.ofNat 32 v).toInt = -2147483648
        · rw [if_pos hmin] at hr; cases hr
        · rw [if_neg hmin] at hr
          simp only [Option.some.injEq, Prod.mk.injEq] at hr
          obtain ⟨rfl, rfl, rfl⟩ := hr
          refine ⟨?_, by omega⟩
          refine run_step ?_ rfl
          rw [step_flags, flagsCase, if_neg (by decide), if_neg (by decide), if_neg (by decide), if_neg (by decide), if_neg (by decide), if_neg (by decide), widthCase]
          rw [if_neg (by decide), if_pos rfl]
          simp only [vaArg, dst, Option.bind_some, wrap_eq 32 v (by omega)]
          by_cases hneg : (BitVec.ofNat 32 v).toInt < 0
          · rw [if_pos hneg, int32, if_pos (by omega)]
            simp only [Option.map_some, hneg, decide_true, if_true]
            congr 3
            omega
          · rw [if_neg hneg]
            simp only [hneg, decide_false, Bool.false_eq_true, if_false]
            congr 3
            omega
      | _ => simp [Spec.resolveWidth] at hr

/-- The letters of modifiers and conversions. -/
def Letter (ch : UInt8) : Prop := Post ch ∧ ch ≠ 46

theorem run_prec {size : Nat} {ch : UInt8} {f : Bytes} (hch : Letter ch) {P : Spec.Field}
    {as as' : List Arg} {p : Option Nat} (hr : Spec.resolvePrec P as = some (p, as')) (fl : Flags) (w : Int) (o : Out) :
    run [] size (Spec.precBytes P ++ ch :: f) (dst .dot fl w (-1) .none as) o =
      run [] size (ch :: f) (dst .mod fl w (precInt p) .none as') o ∧ ∀ n, p = some n → n ≤ 2147483647 := by
  obtain ⟨hpost, hdot⟩ := hch
  have hprec : ∀ (q : Int) (p : Option Nat), (if q = -1 then 0 else q) = precInt p →
      run [] size (ch :: f) (dst .precision fl w q .none as) o = run [] size (ch :: f) (dst .mod fl w (precInt p) .none as) o := by
    intro q p hq
    refine run_same ?_
    show precCase [] size _ o ch = modCase [] size _ o ch
    unfold precCase
    rw [if_neg (by simp [hpost.1]), if_neg hpost.2.1]
    have hq' : (if (dst .precision fl w q .none as).precision = -1 then 0 else (dst .precision fl w q .none as).precision) = precInt p := hq
    simp only [hq']
    rfl
  cases P with
  | absent =>
    simp only [Spec.resolvePrec, Option.some.injEq, Prod.mk.injEq] at hr
    obtain ⟨rfl, rfl⟩ := hr
    refine ⟨run_same ?_, fun n h => by cases h⟩
    show dotCase [] size _ o ch = modCase [] size _ o ch
    unfold dotCase
    rw [if_neg hdot]; rfl
  | lit n =>
    simp only [Spec.resolvePrec] at hr
    by_cases hv : Spec.Numeral.value n ≤ 2147483647
    · rw [if_pos hv] at hr
      simp only [Option.some.injEq, Prod.mk.injEq] at hr
      obtain ⟨rfl, rfl⟩ := hr
      refine ⟨?_, fun m h => by cases h; exact hv⟩
      rw [Spec.precBytes, List.cons_append, run_step (s' := dst .precision fl w (-1) .none as) (o' := o) (by rfl) rfl]
      cases n with
      | nil => exact hprec (-1) (some 0) rfl
      | cons d t =>
        have hv' : numVal (10 * 0 + d.val) t ≤ 2147483647 := hv
        have hle := le_numVal t (10 * 0 + d.val)
        rw [Spec.Numeral.bytes, List.map_cons, List.cons_append,
          run_step (s' := dst .precision fl w ((10 * 0 + d.val : Nat) : Int) .none as) (o' := o) (by rw [step_prec, precCase_digit d 0 rfl (by omega)]; rfl) rfl]
        refine (run_precDigits t _ hv').trans (hprec _ (some _) ?_)
        rw [if_neg (by omega)]
        rfl
    · rw [if_neg hv] at hr; cases hr
  | star =>
    cases as with
    | nil => simp [Spec.resolvePrec] at hr
    | cons a as =>
      cases a with
      | w32 v =>
        have hb := bv32_bounds v
        simp only [Spec.resolvePrec, Option.some.injEq, Prod.mk.injEq] at hr
        obtain ⟨rfl, rfl⟩ := hr
        refine ⟨?_, ?_⟩
        · rw [Spec.precBytes, List.cons_append, run_step (s' := dst .precision fl w (-1) .none _) (o' := o) (by rfl) rfl]
          refine run_step ?_ rfl
          rw [step_prec, precCase]
          rw [if_neg (by decide), if_pos rfl]
          simp only [vaArg, dst, Option.bind_some, wrap_eq 32 v (by omega)]
          congr 3
          by_cases hneg : (BitVec.ofNat 32 v).toInt < 0
          · rw [if_pos hneg, if_pos hneg]; rfl
          · rw [if_neg hneg, if_neg hneg]; simp only [precInt]; omega
        · intro n hn
          by_cases hneg : (BitVec.ofNat 32 v).toInt < 0
          · rw [if_pos hneg] at hn; cases hn
          · rw [if_neg hneg] at hn; cases hn; omega
      | _ => simp [Spec.resolvePrec] at hr

/-- The letters of conversions. -/
def ConvLetter (ch : UInt8) : Prop := ch ≠ 104 ∧ ch ≠ 108 ∧ ch ≠ 76 ∧ ch ≠ 106 ∧ ch ≠ 116 ∧ ch ≠ 122

theorem run_mod {size : Nat} {ch : UInt8} (hch : ConvLetter ch) (M : Mod) (fl : Flags) (w p : Int) (as : List Arg) (o : Out) :
    run [] size (Spec.modBytes M ++ [ch]) (dst .mod fl w p .none as) o = run [] size [ch] (dst .conv fl w p M as) o := by
  obtain ⟨h1, h2, h3, h4, h5, h6⟩ := hch
  cases M with
  | none =>
    refine run_same ?_
    rw [step_mod, step_conv, modCase, if_neg h1, if_neg h2, if_neg h3, if_neg h4, if_neg h5, if_neg h6]; rfl
  | char =>
    rw [Spec.modBytes, List.cons_append, run_step (s' := dst .modH fl w p .none as) (o' := o) (by rfl) rfl]
    exact run_step (by rfl) rfl
  | short =>
    rw [Spec.modBytes, List.cons_append, run_step (s' := dst .modH fl w p .none as) (o' := o) (by rfl) rfl]
    refine run_same ?_
    show (if ch = 104 then _ else _) = _
    rw [if_neg h1]; rfl
  | long =>
    rw [Spec.modBytes, List.cons_append, run_step (s' := dst .modL fl w p .none as) (o' := o) (by rfl) rfl]
    refine run_same ?_
    show (if ch = 108 then _ else _) = _
    rw [if_neg h2]; rfl
  | llong =>
    rw [Spec.modBytes, List.cons_append, run_step (s' := dst .modL fl w p .none as) (o' := o) (by rfl) rfl]
    exact run_step (by rfl) rfl
  | ldouble => exact run_step (by rfl) rfl
  | size => exact run_step (by rfl) rfl
  | ptrdiff => exact run_step (by rfl) rfl
  | intmax => exact run_step (by rfl) rfl

theorem run_one {size : Nat} {ch : UInt8} {s : St} {o : Out} {r : St × Out} (h : step [] size s o ch = some r) : run [] size [ch] s o = some r := by
  rw [run, h, Option.bind_some]
  simp only [run]
  split <;> rfl

/-- The flags of a directive. -/
def flagsOf (fs : List Spec.Flag) (left : Bool) : Flags :=
  { minus := left || fs.contains .minus, plus := fs.contains .plus, space := fs.contains .space, num := fs.contains .num, zero := fs.contains .zero, quote := fs.contains .quote }

theorem signedArg_eq {m : Mod} {a : Arg} {v : Int} {c : Spec.IntConv} (hc : c = .d ∨ c = .i) (h : Spec.intValue c m a = some v) (hm : m ≠ .ldouble) :
    signedArg m a = some v ∧ -9223372036854775808 ≤ v ∧ v < 9223372036854775808 := by
  have key : ∀ b n, 0 < b → b ≤ 64 → -9223372036854775808 ≤ (BitVec.ofNat b n).toInt ∧ (BitVec.ofNat b n).toInt < 9223372036854775808 := by
    intro b n hb hb'
    have h1 := BitVec.le_toInt (BitVec.ofNat b n)
    have h2 := BitVec.toInt_lt (x := BitVec.ofNat b n)
    have h3 : (2 : Int) ^ (b - 1) ≤ 2 ^ 63 := by
      have := Nat.pow_le_pow_right (show 0 < 2 by omega) (show b - 1 ≤ 63 by omega)
      exact_mod_cast this
    have h4 : (2 : Int) ^ 63 = 9223372036854775808 := by decide
    omega
  have hv : ∀ b n, 0 < b → b ≤ 64 → (BitVec.ofNat b n).toInt = v → some (wrap b n) = some v ∧ -9223372036854775808 ≤ v ∧ v < 9223372036854775808 := by
    intro b n hb hb' he
    subst he
    exact ⟨by rw [wrap_eq b n hb], key b n hb hb'⟩
  rcases hc with rfl | rfl <;> unfold Spec.intValue at h <;> dsimp only at h <;>
  cases m <;> cases a <;> simp only [Spec.argBits, Spec.modBits, if_true, Bool.false_eq_true, if_false, Option.map_some, Option.map_none, Option.some.injEq, reduceCtorEq] at h <;>
    first
    | exact absurd rfl hm
    | exact hv _ _ (by decide) (by decide) h

theorem unsignedArg_eq {m : Mod} {a : Arg} {v : Int} {c : Spec.IntConv} (hc : ¬(c = .d ∨ c = .i)) (h : Spec.intValue c m a = some v) (hm : m ≠ .ldouble) :
    ∃ V, unsignedArg m a = some V ∧ (V % 18446744073709551616).toNat = v.natAbs ∧ 0 ≤ v ∧ v < 18446744073709551616 := by
  have hw : ∀ n : Nat, (wrap 64 n % 18446744073709551616).toNat = n % 2 ^ 64 := by
    intro n; unfold wrap
    have e1 : (2 : Nat) ^ 64 = 18446744073709551616 := by decide
    have e2 : (2 : Nat) ^ (64 - 1) = 9223372036854775808 := by decide
    rw [e1, e2]
    have := Nat.mod_lt n (show 18446744073709551616 > 0 by omega)
    split <;> omega
  have hsmall : ∀ b n : Nat, b ≤ 32 → (((n % 2 ^ b : Nat) : Int) % 18446744073709551616).toNat = n % 2 ^ b ∧ n % 2 ^ b < 18446744073709551616 := by
    intro b n hb
    have h1 := Nat.mod_lt n (Nat.pow_pos (n := b) (show 0 < 2 by omega))
    have h2 := Nat.pow_le_pow_right (show 0 < 2 by omega) hb
    have e : (2 : Nat) ^ 32 = 4294967296 := by decide
    rw [e] at h2
    omega
  have h64 : ∀ n : Nat, n % 2 ^ 64 < 18446744073709551616 := fun n => by
    have := Nat.mod_lt n (show 0 < 2 ^ 64 by decide)
    have e1 : (2 : Nat) ^ 64 = 18446744073709551616 := by decide
    omega
  cases c <;> (try (refine absurd ?_ hc; decide)) <;> unfold Spec.intValue at h <;> dsimp only at h <;>
  cases m <;> cases a <;> simp only [Spec.argBits, Spec.modBits, if_true, Bool.false_eq_true, if_false, Option.map_some, Option.map_none, Option.some.injEq, reduceCtorEq] at h <;>
    subst h <;> first
    | exact absurd rfl hm
    | (rename_i n; exact ⟨_, rfl, by rw [hw, Int.natAbs_natCast], Int.natCast_nonneg _, by have := h64 n; omega⟩)
    | (rename_i n; exact ⟨_, rfl, by rw [Int.natAbs_natCast]; exact (hsmall _ n (by decide)).1, Int.natCast_nonneg _, Int.ofNat_lt.2 (hsmall _ n (by decide)).2⟩)

theorem signOf_signed {c : Spec.IntConv} (hc : c = .d ∨ c = .i) (v : Int) (fl : Flags) (hu : fl.unsigned = false) :
    (if signOf v fl ≠ 0 then [signOf v fl] else []) = Spec.sign c v fl.plus fl.space := by
  unfold signOf Spec.sign
  rw [if_pos hc, hu]
  simp only [Bool.false_eq_true, if_false]
  by_cases h1 : v < 0
  · simp only [h1, if_true]; rfl
  · cases h2 : fl.plus <;> cases h3 : fl.space <;> simp only [h1, if_false, if_true, Bool.false_eq_true] <;> rfl

theorem run_dir {size : Nat} {o : Out} (ho : size ≤ o.buf.length) {d : Spec.Dir} (hwf : (Spec.Piece.dir d).wf) {as as' : List Arg} {it : Spec.Item}
    (hr : Spec.resolveDir d as = some (it, as')) (hok : it.ok) :
    run [] size (Spec.Piece.dir d).bytes { args := as } o = some ({ args := as' }, emit size o it.text) := by
  obtain ⟨hwl, hmod, hcs⟩ := hwf
  unfold Spec.resolveDir at hr
  obtain ⟨⟨w, left, as1⟩, hw, hr⟩ := Option.bind_eq_some_iff.1 hr
  obtain ⟨⟨p, as2⟩, hp, hr⟩ := Option.bind_eq_some_iff.1 hr
  have hconv : Letter d.conv.byte ∧ ConvLetter d.conv.byte := by
    cases d.conv with
    | int c => cases c <;> exact ⟨by unfold Letter Post; decide, by unfold ConvLetter; decide⟩
    | c => exact ⟨by unfold Letter Post; decide, by unfold ConvLetter; decide⟩
    | s => exact ⟨by unfold Letter Post; decide, by unfold ConvLetter; decide⟩
  have hml : ∃ ch f, Spec.modBytes d.mod ++ [d.conv.byte] = ch :: f ∧ Letter ch := by
    cases d.mod with
    | none => exact ⟨_, _, rfl, hconv.1⟩
    | _ => exact ⟨_, _, rfl, by unfold Letter Post; decide⟩
  obtain ⟨ch, f, hcf, hl⟩ := hml
  have hpl : ∃ ch f, Spec.precBytes d.prec ++ (Spec.modBytes d.mod ++ [d.conv.byte]) = ch :: f ∧ Post ch := by
    rw [hcf]
    cases d.prec with
    | absent => exact ⟨_, _, rfl, hl.1⟩
    | lit n => exact ⟨_, _, rfl, by unfold Post; decide⟩
    | star => exact ⟨_, _, rfl, by unfold Post; decide⟩
  obtain ⟨ch', f', hcf', hl'⟩ := hpl
  have h1 : run [] size (Spec.Piece.dir d).bytes { args := as } o =
      run [] size [d.conv.byte] (dst .conv (flagsOf d.flags left) w (precInt p) d.mod as2) o ∧ w ≤ 2147483647 ∧ ∀ n, p = some n → n ≤ 2147483647 := by
    rw [Spec.Piece.bytes, run_step (s' := dst .flags {} 0 (-1) .none as) (o' := o) (by rfl) rfl]
    simp only [List.append_assoc]
    rw [run_flags, hcf']
    obtain ⟨h2, h3⟩ := run_width hl' hwl hw (d.flags.foldl applyFlag {}) o (size := size) (f := f')
    rw [h2, ← hcf', hcf]
    obtain ⟨h4, h5⟩ := run_prec hl hp (if left then { d.flags.foldl applyFlag {} with minus := true } else d.flags.foldl applyFlag {}) w o (size := size) (f := f)
    rw [h4, ← hcf, run_mod hconv.2]
    refine ⟨?_, h3, h5⟩
    congr 2
    rw [foldl_applyFlag]
    cases left <;> simp [flagsOf]
  obtain ⟨h1, hw', hp'⟩ := h1
  rw [h1]
  refine run_one ?_
  rw [step_conv]
  cases hc : d.conv with
  | int c =>
    rw [hc] at hr
    cases as2 with
    | nil => cases hr
    | cons a as2 =>
      simp only at hr
      obtain ⟨v, hv, hr⟩ := Option.map_eq_some_iff.1 hr
      simp only [Prod.mk.injEq] at hr
      obtain ⟨rfl, rfl⟩ := hr
      by_cases hsd : c = .d ∨ c = .i
      · obtain ⟨hs1, hs2, hs3⟩ := signedArg_eq hsd hv hmod
        have hne : v ≠ -9223372036854775808 := hok.1
        have hfi : fmtint [] size o v 10 w (precInt p) (flagsOf d.flags left) = some (emit size o
            (Spec.Item.int c v (flagsOf d.flags left).minus (flagsOf d.flags left).plus (flagsOf d.flags left).space (flagsOf d.flags left).num (flagsOf d.flags left).zero w p).text) := by
          have := fmtint_ok (size := size) (o := o) ho (c := c) (v := v) (V := v) (w := w) (p := p) (fl := flagsOf d.flags left) hw' hp'
            (by rcases hsd with rfl | rfl <;> rfl)
            (by
              unfold uvalueOf
              simp only [flagsOf, Bool.false_eq_true, if_false]
              split
              · congr 1; omega
              · (try rw [if_neg hne]); congr 1; omega) (by omega) (signOf_signed hsd v _ rfl) (fun _ => hsd) (fun h => by cases h) hok
          rcases hsd with rfl | rfl <;> exact this
        have hcb : (Spec.Conv.int c).byte = 100 ∨ (Spec.Conv.int c).byte = 105 := by rcases hsd with rfl | rfl <;> decide
        rw [convCase, if_pos hcb]
        simp only [vaArg, dst, Option.bind_some, hs1]
        rw [hfi]
        rfl
      · obtain ⟨V, hs1, hs2, hs3, hs4⟩ := unsignedArg_eq hsd hv hmod
        have key : ∀ up, up = decide (c = .X) → convUnsigned [] size (dst .conv (flagsOf d.flags left) w (precInt p) d.mod (a :: as2)) o (Spec.base c) up =
            some ({ args := as2 }, emit size o (Spec.Item.int c v (left || d.flags.contains .minus) (d.flags.contains .plus) (d.flags.contains .space) (d.flags.contains .num) (d.flags.contains .zero) w p).text) := by
          intro up hup
          have := fmtint_ok (size := size) (o := o) ho (c := c) (v := v) (V := V) (w := w) (p := p) (fl := { flagsOf d.flags left with up := up, unsigned := true }) hw' hp'
            hup (by unfold uvalueOf; rw [if_pos rfl, hs2]) (by omega)
            (by unfold signOf Spec.sign; rw [if_pos rfl, if_neg hsd]; rfl) (fun h => by cases h) (fun _ => hsd) hok
          rw [convUnsigned]
          simp only [vaArg, dst, Option.bind_some, hs1]
          rw [this]
          rfl
        cases c with
        | d => exact absurd (.inl rfl) hsd
        | i => exact absurd (.inr rfl) hsd
        | u => exact key false rfl
        | o => exact key false rfl
        | x => exact key false rfl
        | X => exact key true rfl
  | c =>
    rw [hc] at hr
    rcases as2 with _ | ⟨a | a | a | a | a, as2⟩ <;> simp only [reduceCtorEq, Option.some.injEq, Prod.mk.injEq] at hr
    obtain ⟨rfl, rfl⟩ := hr
    have hw0 : w = 0 := hok
    subst hw0
    show (outchar size o (UInt8.ofNat a)).map _ = _
    rw [outchar_eq ho]
    simp [Spec.Item.text, Spec.inField, reset, dst]
  | s =>
    rw [hc] at hr
    have key : ∀ m : Bytes, (Spec.Item.str m (left || d.flags.contains .minus) w p).ok →
        (fmtstr size o m w (precInt p) (flagsOf d.flags left)) = some (emit size o (Spec.Item.str m (left || d.flags.contains .minus) w p).text) :=
      fun m hm => fmtstr_ok (fl := flagsOf d.flags left) ho hw' hp' hm
    rcases as2 with _ | ⟨a | a | a | (_ | a) | a, as2⟩ <;> simp only [reduceCtorEq, Option.some.injEq, Prod.mk.injEq] at hr
    · obtain ⟨rfl, rfl⟩ := hr
      show (fmtstr size o a w (precInt p) (flagsOf d.flags left)).map _ = _
      rw [key a hok]; rfl
    · obtain ⟨rfl, rfl⟩ := hr
      show (fmtstr size o nullText w (precInt p) (flagsOf d.flags left)).map _ = _
      rw [key nullText hok]; rfl

theorem run_append {size : Nat} : ∀ (a b : Bytes) (s : St) (o : Out) {s' : St} {o' : Out}, run [] size a s o = some (s', o') → s'.overflow = false →
    s.overflow = false → run [] size (a ++ b) s o = run [] size b s' o' := by
  intro a
  induction a with
  | nil => intro b s o s' o' h _ _; cases h; rfl
  | cons c a ih =>
    intro b s o s' o' h h1 h2
    rw [run] at h
    obtain ⟨r, hr, h⟩ := Option.bind_eq_some_iff.1 h
    by_cases hov : r.1.overflow = true
    · rw [if_pos hov] at h; cases h; rw [hov] at h1; cases h1
    · rw [if_neg hov] at h
      rw [List.cons_append, run, hr, Option.bind_some, if_neg hov]
      exact ih b r.1 r.2 h h1 (by simpa using hov)

theorem resolveDir_rest {d : Spec.Dir} {as as' : List Arg} {it : Spec.Item} (hr : Spec.resolveDir d as = some (it, as')) : as' = as.drop (Spec.Piece.dir d).args := by
  unfold Spec.resolveDir at hr
  obtain ⟨⟨w, left, as1⟩, hw, hr⟩ := Option.bind_eq_some_iff.1 hr
  obtain ⟨⟨p, as2⟩, hp, hr⟩ := Option.bind_eq_some_iff.1 hr
  have h1 : as1 = as.drop (if d.width = .star then 1 else 0) := by
    cases hW : d.width with
    | absent => rw [hW] at hw; simp only [Spec.resolveWidth, Option.some.injEq, Prod.mk.injEq] at hw; simp [hw.2.2]
    | lit n =>
      rw [hW] at hw; simp only [Spec.resolveWidth] at hw
      split at hw
      · simp only [Option.some.injEq, Prod.mk.injEq] at hw; simp [hw.2.2]
      · cases hw
    | star =>
      rw [hW] at hw
      rcases as with _ | ⟨a | a | a | a | a, as⟩ <;> simp only [Spec.resolveWidth, reduceCtorEq] at hw
      split at hw
      · cases hw
      · simp only [Option.some.injEq, Prod.mk.injEq] at hw; simp [hw.2.2]
  have h2 : as2 = as1.drop (if d.prec = .star then 1 else 0) := by
    cases hW : d.prec with
    | absent => rw [hW] at hp; simp only [Spec.resolvePrec, Option.some.injEq, Prod.mk.injEq] at hp; simp [hp.2]
    | lit n =>
      rw [hW] at hp; simp only [Spec.resolvePrec] at hp
      split at hp
      · simp only [Option.some.injEq, Prod.mk.injEq] at hp; simp [hp.2]
      · cases hp
    | star =>
      rw [hW] at hp
      rcases as1 with _ | ⟨a | a | a | a | a, as1⟩ <;> simp only [Spec.resolvePrec, reduceCtorEq] at hp
      simp only [Option.some.injEq, Prod.mk.injEq] at hp; simp [hp.2]
  have h3 : as' = as2.drop 1 := by
    cases hc : d.conv with
    | int c =>
      rw [hc] at hr
      cases as2 with
      | nil => cases hr
      | cons a as2 =>
        simp only at hr
        obtain ⟨v, _, hr⟩ := Option.map_eq_some_iff.1 hr
        simp only [Prod.mk.injEq] at hr
        simp [hr.2]
    | c =>
      rw [hc] at hr
      rcases as2 with _ | ⟨a | a | a | a | a, as2⟩ <;> simp only [reduceCtorEq, Option.some.injEq, Prod.mk.injEq] at hr
      simp [hr.2]
    | s =>
      rw [hc] at hr
      rcases as2 with _ | ⟨a | a | a | (_ | a) | a, as2⟩ <;> simp only [reduceCtorEq, Option.some.injEq, Prod.mk.injEq] at hr
      · simp [hr.2]
      · simp [hr.2]
  rw [h3, h2, h1, List.drop_drop, List.drop_drop]
  simp only [Spec.Piece.args, Nat.add_assoc]

theorem run_pieces {size : Nat} : ∀ (ps : List Spec.Piece) (as : List Arg) (is : List Spec.Item) (o : Out), size ≤ o.buf.length →
    (∀ p ∈ ps, p.wf) → Spec.resolve ps as = some is → (∀ i ∈ is, i.ok) →
    run [] size (Spec.unparse ps) { args := as } o = some ({ args := as.drop (ps.map Spec.Piece.args).sum }, emit size o (Spec.text is)) := by
  intro ps
  induction ps with
  | nil => intro as is o _ _ hr _; cases hr; simp [Spec.unparse, Spec.text, run]
  | cons p ps ih =>
    intro as is o ho hwf hr hok
    have hcons : ∀ (as1 : List Arg) (is' : List Spec.Item) (it : Spec.Item), is = it :: is' → Spec.resolve ps as1 = some is' → as1 = as.drop p.args →
        run [] size p.bytes { args := as } o = some ({ args := as1 }, emit size o it.text) →
        run [] size (Spec.unparse (p :: ps)) { args := as } o = some ({ args := as.drop ((p :: ps).map Spec.Piece.args).sum }, emit size o (Spec.text is)) := by
      intro as1 is' it he hr' has hrun
      subst he
      have h := ih as1 is' (emit size o it.text) (by simpa using ho) (fun q hq => hwf q (.tail _ hq)) hr' (fun i hi => hok i (.tail _ hi))
      rw [Spec.unparse, List.flatMap_cons, run_append _ _ _ _ hrun rfl rfl]
      refine h.trans ?_
      rw [← emit_append, has, List.drop_drop]; rfl
    cases p with
    | chr c =>
      obtain ⟨is', h1, h2⟩ := Option.map_eq_some_iff.1 hr
      have hc : c ≠ 37 := hwf _ (.head _)
      refine hcons as is' _ h2.symm h1 rfl (run_one ?_)
      show (if c = 37 then _ else (outchar size o c).map _) = _
      rw [if_neg hc, outchar_eq ho]; rfl
    | percent =>
      obtain ⟨is', h1, h2⟩ := Option.map_eq_some_iff.1 hr
      refine hcons as is' _ h2.symm h1 rfl ?_
      rw [Spec.Piece.bytes, run_step (s' := dst .flags {} 0 (-1) .none as) (o' := o) (by rfl) rfl]
      refine run_one ?_
      show (outchar size o 37).map _ = _
      rw [outchar_eq ho]; rfl
    | dir d =>
      obtain ⟨⟨it, as1⟩, h1, h2⟩ := Option.bind_eq_some_iff.1 hr
      obtain ⟨is', h3, h4⟩ := Option.map_eq_some_iff.1 h2
      exact hcons as1 is' it h4.symm h3 (resolveDir_rest h1) (run_dir ho (hwf _ (.head _)) h1 (hok it (by rw [← h4]; exact .head _)))

/-! ## Fields beyond `int` -/

theorem run_overflow {size : Nat} {ch : UInt8} {f : Bytes} {s s' : St} {o o' : Out} (h : step [] size s o ch = some (s', o')) (hov : s'.overflow = true) :
    run [] size (ch :: f) s o = some (s', o') := by
  rw [run, h, Option.bind_some, if_pos (by simp [hov])]

theorem run_widthDigits_over {size : Nat} {f : Bytes} {as : List Arg} {o : Out} {fl : Flags} : ∀ (ds : Spec.Numeral) (v : Nat), v ≤ 2147483647 → 2147483647 < numVal v ds →
    ∃ s, run [] size (ds.bytes ++ f) (dst .width fl v (-1) .none as) o = some (s, o) ∧ s.overflow = true ∧ s.stores = [] := by
  intro ds
  induction ds with
  | nil => intro v h1 h2; simp only [numVal, List.foldl_nil] at h2; omega
  | cons d ds ih =>
    intro v h1 h2
    by_cases hv : 10 * v + d.val ≤ 2147483647
    · rw [Spec.Numeral.bytes, List.map_cons, List.cons_append,
        run_step (s' := dst .width fl ((10 * v + d.val : Nat) : Int) (-1) .none as) (o' := o) ?_ rfl]
      · exact ih _ hv h2
      · show widthCase [] size _ o _ = _
        exact widthCase_digit d v rfl hv
    · refine ⟨{ dst .width fl v (-1) .none as with overflow := true }, ?_, rfl, rfl⟩
      rw [Spec.Numeral.bytes, List.map_cons, List.cons_append]
      refine run_overflow ?_ rfl
      show widthCase [] size _ o _ = _
      unfold widthCase
      have hd := d.isLt
      simp only [digit_isDigit, if_true, digit_toNat, dst]
      rw [if_pos (by omega)]

theorem run_precDigits_over {size : Nat} {f : Bytes} {as : List Arg} {o : Out} {fl : Flags} {w : Int} : ∀ (ds : Spec.Numeral) (q : Int) (v : Nat), (if q = -1 then 0 else q) = v →
    v ≤ 2147483647 → 2147483647 < numVal v ds →
    ∃ s, run [] size (ds.bytes ++ f) (dst .precision fl w q .none as) o = some (s, o) ∧ s.overflow = true ∧ s.stores = [] := by
  intro ds
  induction ds with
  | nil => intro q v _ h1 h2; simp only [numVal, List.foldl_nil] at h2; omega
  | cons d ds ih =>
    intro q v hq h1 h2
    by_cases hv : 10 * v + d.val ≤ 2147483647
    · rw [Spec.Numeral.bytes, List.map_cons, List.cons_append,
        run_step (s' := dst .precision fl w ((10 * v + d.val : Nat) : Int) .none as) (o' := o) ?_ rfl]
      · exact ih _ _ (by split <;> omega) hv h2
      · show precCase [] size _ o _ = _
        exact precCase_digit d v hq hv
    · refine ⟨{ dst .precision fl w q .none as with overflow := true }, ?_, rfl, rfl⟩
      rw [Spec.Numeral.bytes, List.map_cons, List.cons_append]
      refine run_overflow ?_ rfl
      show precCase [] size _ o _ = _
      unfold precCase
      have hd := d.isLt
      simp only [digit_isDigit, if_true, digit_toNat, dst, hq]
      rw [if_pos (by omega)]

/-- A directive's width is too large. -/
theorem run_width_over {size : Nat} {f : Bytes} {as : List Arg} {o : Out} (fs : List Spec.Flag) (h : Fin 10) (t : Spec.Numeral) (h0 : h ≠ 0)
    (hv : 2147483647 < Spec.Numeral.value (h :: t)) :
    ∃ s, run [] size (37 :: (fs.map Spec.Flag.byte ++ (Spec.Numeral.bytes (h :: t) ++ f))) { args := as } o = some (s, o) ∧ s.overflow = true ∧ s.stores = [] := by
  rw [run_step (s' := dst .flags {} 0 (-1) .none as) (o' := o) (by rfl) rfl, run_flags]
  obtain ⟨h1, h2, h3, h4, h5, h6⟩ := digit_notFlag h h0
  rw [Spec.Numeral.bytes, List.map_cons, List.cons_append, run_step (s' := dst .width (fs.foldl applyFlag {}) ((10 * 0 + h.val : Nat) : Int) (-1) .none as) (o' := o) ?_ rfl]
  · exact run_widthDigits_over t _ (by have := h.isLt; omega) hv
  · show flagsCase [] size _ o _ = _
    unfold flagsCase
    rw [if_neg h1, if_neg h2, if_neg h3, if_neg h4, if_neg h5, if_neg h6]
    exact widthCase_digit h 0 rfl (by have := h.isLt; omega)

/-- A directive's precision is too large. -/
theorem run_prec_over {size : Nat} {f : Bytes} {as : List Arg} {o : Out} (fs : List Spec.Flag) {W : Spec.Field} (hW : ∀ n, W = .lit n → ∃ h t, n = h :: t ∧ h ≠ 0)
    {as' : List Arg} {w : Nat} {left : Bool} (hr : Spec.resolveWidth W as = some (w, left, as')) (n : Spec.Numeral) (hv : 2147483647 < n.value) :
    ∃ s, run [] size (37 :: (fs.map Spec.Flag.byte ++ (Spec.widthBytes W ++ (46 :: (n.bytes ++ f))))) { args := as } o = some (s, o) ∧ s.overflow = true ∧ s.stores = [] := by
  rw [run_step (s' := dst .flags {} 0 (-1) .none as) (o' := o) (by rfl) rfl, run_flags]
  rw [(run_width (ch := 46) (by unfold Post; decide) hW hr _ o).1]
  rw [run_step (s' := dst .precision (if left then { fs.foldl applyFlag {} with minus := true } else fs.foldl applyFlag {}) w (-1) .none as') (o' := o) (by rfl) rfl]
  exact run_precDigits_over n (-1) 0 rfl (by omega) hv

/-! ## `%n` -/

theorem storeOf_eq (m : Mod) (n : Nat) : storeOf m n = (BitVec.ofNat (Spec.modBits m).1 n).toInt := by
  cases m <;> simp only [storeOf, Spec.modBits] <;> exact wrap_eq _ _ (by omega)

theorem run_n {size : Nat} {m : Mod} {as : List Arg} {o : Out} :
    run [] size (37 :: (Spec.modBytes m ++ [110])) { args := .dst :: as } o = some ({ args := as, stores := [(BitVec.ofNat (Spec.modBits m).1 o.len).toInt] }, o) := by
  rw [run_step (s' := dst .flags {} 0 (-1) .none (.dst :: as)) (o' := o) (by rfl) rfl, ← storeOf_eq]
  have h : run [] size (Spec.modBytes m ++ [110]) (dst .flags {} 0 (-1) .none (.dst :: as)) o = run [] size (Spec.modBytes m ++ [110]) (dst .mod {} 0 (-1) .none (.dst :: as)) o := by
    cases m <;> exact run_same rfl
  rw [h, run_mod (by unfold ConvLetter; decide)]
  exact run_one (by rfl)

/-! ## Thousands separators -/

theorem grouped_length (sep : Bytes) : ∀ l : Bytes, (Spec.grouped sep l).length = l.length + getnumsep sep l.length := by
  intro l
  induction l with
  | nil => simp [Spec.grouped, getnumsep]
  | cons c cs ih =>
    simp only [Spec.grouped, List.length_cons, List.length_append, ih, getnumsep]
    by_cases h0 : cs = []
    · subst h0; simp
    · have hl : 0 < cs.length := List.length_pos_iff.2 h0
      by_cases h : cs.length % 3 = 0
      · rw [if_pos ⟨h0, h⟩, if_pos h, if_neg (show ¬ (cs.length + 1) % 3 = 0 by omega)]
        rw [show (cs.length + 1 - 0) / 3 = (cs.length - 1) / 3 + 1 by omega, Nat.add_mul]; omega
      · rw [if_neg (by simp [h]), if_neg h]
        rw [show (cs.length + 1 - if (cs.length + 1) % 3 = 0 then 1 else 0) / 3 = (cs.length - 0) / 3 by split <;> omega]
        simp; omega

theorem digitsLoop_sep {size : Nat} {sep : Bytes} {n : Nat} (hn : 0 < n) (ic : Bytes) : ∀ (pos : Nat) (o : Out), size ≤ o.buf.length → pos ≤ ic.length →
    digitsLoop size sep n ic pos o = some (emit size o (Spec.grouped sep (ic.take pos).reverse)) := by
  intro pos
  induction pos with
  | zero => intro o _ _; simp [digitsLoop, Spec.grouped]
  | succ pos ih =>
    intro o ho hp
    have ht : ic.take (pos + 1) = ic.take pos ++ [ic[pos]] := by rw [List.take_append_getElem]
    have hlen : (ic.take pos).reverse.length = pos := by rw [List.length_reverse, List.length_take]; omega
    have hne : (ic.take pos).reverse ≠ [] ↔ 0 < pos := by rw [← List.length_pos_iff, hlen]
    rw [digitsLoop, CMem.read, List.getElem?_eq_getElem (by omega), Option.bind_some, outchar_eq ho, Option.bind_some, ht, List.reverse_append]
    show _ = some (emit size o (Spec.grouped sep (ic[pos] :: (ic.take pos).reverse)))
    rw [Spec.grouped, hlen, show (ic[pos] :: ((if (ic.take pos).reverse ≠ [] ∧ pos % 3 = 0 then sep else []) ++ Spec.grouped sep (ic.take pos).reverse)) =
      [ic[pos]] ++ ((if (ic.take pos).reverse ≠ [] ∧ pos % 3 = 0 then sep else []) ++ Spec.grouped sep (ic.take pos).reverse) from rfl, emit_append, emit_append]
    by_cases h : 0 < pos ∧ pos % 3 = 0
    · rw [if_pos ⟨hn, h⟩, if_pos ⟨hne.2 h.1, h.2⟩, outAll_eq _ _ (by simpa using ho), Option.bind_some, ih _ (by simpa using ho) (by omega)]
    · rw [if_neg (fun hh => h hh.2), if_neg (fun hh => h ⟨hne.1 hh.1, hh.2⟩), ih _ (by simpa using ho) (by omega), emit_nil]

/-- `fmtint` with the separators, base 10, no precision and no zero flag. -/
theorem fmtint_sep {size : Nat} {o : Out} (ho : size ≤ o.buf.length) {sep : Bytes} (hsl : sep.length ≤ 16) {v : Int} {u : Nat} {w : Nat} {fl : Flags} {sg : UInt8}
    (hu : uvalueOf v fl = some u) (hlt : u < 2 ^ 64) (hsg : signOf v fl = sg) (hz : fl.zero = false) (hq : fl.quote = true) (hw : w ≤ 2147483647) (hup : fl.up = false) :
    fmtint sep size o v 10 w (-1) fl = some (emit size o (Spec.inField fl.minus w ((if sg ≠ 0 then [sg] else []) ++ Spec.grouped sep (Spec.numeral 10 u)))) := by
  have hN : (convert 10 fl.up 43 u).reverse = Spec.numeral 10 u := by
    rw [convert_reverse fl.up (by omega) (by omega) 43 u (Nat.lt_of_lt_of_le hlt (by decide)) (by omega), casedNumeral, hup]; rfl
  have hNl : (Spec.numeral 10 u).length = (convert 10 fl.up 43 u).length := by rw [← hN, List.length_reverse]
  unfold fmtint
  rw [hu, Option.bind_some]
  have hle := convert_length_le 10 fl.up 43 u
  have hpos := convert_length_pos 10 fl.up 42 u
  revert hN hNl hle hpos
  generalize convert 10 fl.up 43 u = ic
  intro hN hNl hle hpos
  have h8 : ((10 : Nat) == 8) = false := rfl
  have h16 : ((10 : Nat) == 16) = false := rfl
  simp only [hsg, h8, h16, hq, hz, Bool.and_false, Bool.false_and, Bool.false_eq_true, if_false, if_true, ne_eq, not_true]
  have hgl := grouped_length sep (Spec.numeral 10 u)
  rw [hNl] at hgl
  have hgs : getnumsep sep ic.length ≤ 43 * 16 := by
    unfold getnumsep
    have h1 : (ic.length - if ic.length % 3 = 0 then 1 else 0) / 3 ≤ 43 := by split <;> omega
    exact Nat.mul_le_mul h1 hsl
  have hdl : digitsLoop size sep (getnumsep sep ic.length) ic ic.length = fun o => digitsLoop size sep (getnumsep sep ic.length) ic ic.length o := rfl
  have hdig : ∀ o' : Out, size ≤ o'.buf.length → digitsLoop size sep (getnumsep sep ic.length) ic ic.length o' = some (emit size o' (Spec.grouped sep (Spec.numeral 10 u))) := by
    intro o' ho'
    by_cases h0 : 0 < getnumsep sep ic.length
    · rw [digitsLoop_sep h0 ic _ _ ho' (Nat.le_refl _), List.take_length, hN]
    · have e0 : getnumsep sep ic.length = 0 := by omega
      have : ∀ (pos : Nat) (o : Out), size ≤ o.buf.length → pos ≤ ic.length → digitsLoop size sep 0 ic pos o = digitsLoop size [] 0 ic pos o := by
        intro pos
        induction pos with
        | zero => intro o _ _; rfl
        | succ pos ih =>
          intro o ho hp
          rw [digitsLoop, digitsLoop, CMem.read, List.getElem?_eq_getElem (by omega), Option.bind_some, outchar_eq ho, Option.bind_some, if_neg (by omega),
            ih _ (by simpa using ho) (by omega)]
          rw [Option.bind_some, outchar_eq ho, Option.bind_some, if_neg (by omega)]
      have hg : Spec.grouped sep (Spec.numeral 10 u) = Spec.numeral 10 u := by
        by_cases hs : sep = []
        · subst hs
          clear hgl hN hNl
          generalize Spec.numeral 10 u = N
          induction N with
          | nil => rfl
          | cons c cs ih => simp only [Spec.grouped, ih, ite_self, List.nil_append]
        · have hs' : 0 < sep.length := List.length_pos_iff.2 hs
          have hle3 : ic.length ≤ 3 := by
            unfold getnumsep at e0
            rcases Nat.mul_eq_zero.1 e0 with h | h
            · split at h <;> omega
            · omega
          have hl3 : (Spec.numeral 10 u).length ≤ 3 := by omega
          revert hl3
          generalize Spec.numeral 10 u = N
          intro hl3
          match N, hl3 with
          | [], _ => rfl
          | [a], _ => simp [Spec.grouped]
          | [a, b], _ => simp [Spec.grouped]
          | [a, b, c], _ => simp [Spec.grouped]
      rw [e0, this _ _ ho' (Nat.le_refl _), digitsLoop_eq _ _ _ ho' (Nat.le_refl _), List.take_length, hN, hg]
  rw [int32, if_pos (by omega), Option.bind_some]
  rw [if_neg (show ¬ ((-1 : Int) ≥ ic.length) by omega)]
  obtain ⟨s, hs⟩ : ∃ s : Int, (w : Int) - (getnumsep sep ic.length : Nat) - (ic.length : Nat) - (if sg ≠ 0 then 1 else 0) - 0 = s := ⟨_, rfl⟩
  have hs' : (w : Int) - (getnumsep sep ic.length : Nat) - (ic.length : Nat) - (if ¬ sg = 0 then 1 else 0) - 0 = s := hs
  rw [hs', int32, if_pos (by rw [← hs]; split <;> omega), Option.bind_some]
  rw [if_pos (show ((-1 : Int) - (ic.length : Nat) - (getnumsep sep ic.length : Nat)) < 0 by omega)]
  simp only [ite_self]
  rw [int32, if_pos (by omega), Option.bind_some]
  have hsign : ∀ o' : Out, size ≤ o'.buf.length → (if ¬ sg = 0 then outchar size o' sg else some o') = some (emit size o' (if sg ≠ 0 then [sg] else [])) := by
    intro o' ho'
    split
    · rw [outchar_eq ho']
    · rw [emit_nil]
  have htl : ((if sg ≠ 0 then [sg] else []) ++ Spec.grouped sep (Spec.numeral 10 u)).length = (if sg ≠ 0 then 1 else 0) + ic.length + getnumsep sep ic.length := by
    rw [List.length_append, hgl]; split <;> simp <;> omega
  have hsn : s.toNat = w - ((if sg ≠ 0 then [sg] else []) ++ Spec.grouped sep (Spec.numeral 10 u)).length := by
    rw [htl, ← hs]; split <;> omega
  have e1 : (if s < 0 then 0 else s).toNat = s.toNat := by split <;> omega
  have e2 : (-(if s < 0 then 0 else s)).toNat = 0 := by split <;> omega
  cases hm : fl.minus <;> simp only [Bool.false_eq_true, if_false, if_true, Spec.inField, Int.neg_neg, e1, e2, hsn] <;>
    rw [outRepeat_eq _ _ _ ho, Option.bind_some, hsign _ (by simpa using ho), Option.bind_some, Option.bind_some, outRepeat_eq _ _ _ (by simpa using ho), Option.bind_some,
      hdig _ (by simpa using ho), Option.bind_some, outRepeat_eq _ _ _ (by simpa using ho)] <;>
    simp only [← emit_append, List.replicate_zero, List.append_nil, List.nil_append, Int.toNat_zero, List.append_assoc]

end Snprintf
