import Verif.Props.JsonOps

/-! C28 for documents with any numbers in the range of `long`: what the copy says. -/

namespace JsonSpec
open Json
mutual
/-- The same document with the texts of its integers and reals replaced. -/
def mapTexts (f g : Bytes → Bytes) : Elem → Elem
  | .prim n .integer v => .prim n .integer (f v)
  | .prim n .real v => .prim n .real (g v)
  | .prim n .string v => .prim n .string v
  | .prim n .bool v => .prim n .bool v
  | .prim n .null v => .prim n .null v
  | .cont n t ks => .cont n t (mapTextsAll f g ks)
def mapTextsAll (f g : Bytes → Bytes) : List Elem → List Elem
  | [] => []
  | e :: es => mapTexts f g e :: mapTextsAll f g es
end
/-- The decimal text of a number in the range of `long`. -/
def IsLong (v : Bytes) : Prop := ∃ x : Int, -2 ^ 63 ≤ x ∧ x < 2 ^ 63 ∧ v = NumSpec.decimalInt x
/-- The conversion to `int`, on texts. -/
def Narrows (f : Bytes → Bytes) : Prop := ∀ x : Int, -2 ^ 63 ≤ x → x < 2 ^ 63 → f (NumSpec.decimalInt x) = NumSpec.decimalInt (x.bmod (2 ^ 32))
end JsonSpec

open JsonSpec Json
namespace Json
variable {okS okK : Bytes → Prop} {rt f : RealText}

theorem mapTexts_name (e : Elem) : (mapTexts f rt e).name = e.name := by
  cases e with
  | prim n t v => cases t <;> rfl
  | cont n t ks => rfl

theorem mapTextsAll_keys (es : List Elem) : keys (mapTextsAll f rt es) = keys es := by
  induction es with
  | nil => rfl
  | cons e es ih =>
    simp only [keys] at ih
    simp only [mapTextsAll, keys, List.map_cons, mapTexts_name, ih]

theorem bmod_range (x : Int) : -2 ^ 31 ≤ x.bmod (2 ^ 32) ∧ x.bmod (2 ^ 32) < 2 ^ 31 := by
  have a := Int.le_bmod (x := x) (m := 2 ^ 32) (by decide)
  have b := Int.bmod_lt (x := x) (m := 2 ^ 32) (by decide)
  omega

mutual
theorem copy_map (hf : Narrows f) : ∀ (e : Elem), Valid okS okK IsLong (fun _ => True) e →
    copy rt e = copy id (mapTexts f rt e) ∧ Valid okS okK IsInt (fun v => id v = v) (mapTexts f rt e)
  | .prim _ .string v, h => ⟨rfl, h⟩
  | .prim _ .real v, _ => ⟨by rw [mapTexts, copy, copy, primCopy, primCopy]; rfl, by rw [mapTexts, Valid]; rfl⟩
  | .prim _ .bool v, h => ⟨rfl, h⟩
  | .prim _ .null v, h => ⟨rfl, h⟩
  | .prim _ .integer v, h => by
    rw [Valid] at h
    obtain ⟨x, h1, h2, rfl⟩ := h
    have hr := bmod_range x
    refine ⟨?_, ?_⟩
    · rw [mapTexts, hf x h1 h2, copy, copy, primCopy, primCopy, getAsInteger_ok x h1 h2, getAsInteger_ok _ (by omega) (by omega)]
      simp only [Option.map_some]
      rw [toInt_id hr.1 hr.2]
      rfl
    · rw [mapTexts, hf x h1 h2, Valid]
      exact ⟨_, hr.1, hr.2, rfl⟩
  | .cont _ .array ks, h => by
    rw [Valid] at h
    obtain ⟨a, b⟩ := copyArray_map hf ks h
    exact ⟨by rw [mapTexts, copy, copy, a], by rw [mapTexts, Valid]; exact b⟩
  | .cont _ .object ks, h => by
    rw [Valid] at h
    obtain ⟨a, b⟩ := copyObject_map hf ks h.1
    exact ⟨by rw [mapTexts, copy, copy, a], by rw [mapTexts, Valid, mapTextsAll_keys]; exact ⟨b, h.2⟩⟩
theorem copyArray_map (hf : Narrows f) : ∀ (es : List Elem), ValidAll okS okK IsLong (fun _ => True) es →
    (∀ acc, copyArray rt es acc = copyArray id (mapTextsAll f rt es) acc) ∧ ValidAll okS okK IsInt (fun v => id v = v) (mapTextsAll f rt es)
  | [], _ => ⟨fun _ => rfl, by rw [mapTextsAll, ValidAll]; trivial⟩
  | e :: es, h => by
    rw [ValidAll] at h
    obtain ⟨a, b⟩ := copy_map hf e h.1
    obtain ⟨c, d⟩ := copyArray_map hf es h.2
    refine ⟨fun acc => ?_, by rw [mapTextsAll, ValidAll]; exact ⟨b, d⟩⟩
    rw [mapTextsAll, copyArray, copyArray, a]
    congr 1
    funext e'
    exact c _
theorem copyObject_map (hf : Narrows f) : ∀ (es : List Elem), ValidAll okS okK IsLong (fun _ => True) es →
    (∀ acc, copyObject rt es acc = copyObject id (mapTextsAll f rt es) acc) ∧ ValidAll okS okK IsInt (fun v => id v = v) (mapTextsAll f rt es)
  | [], _ => ⟨fun _ => rfl, by rw [mapTextsAll, ValidAll]; trivial⟩
  | e :: es, h => by
    rw [ValidAll] at h
    obtain ⟨a, b⟩ := copy_map hf e h.1
    obtain ⟨c, d⟩ := copyObject_map hf es h.2
    refine ⟨fun acc => ?_, by rw [mapTextsAll, ValidAll]; exact ⟨b, d⟩⟩
    rw [mapTextsAll, copyObject, copyObject, a, mapTexts_name]
    congr 1
    funext n
    congr 1
    funext e'
    exact c _
end
end Json

/-- C28, exactly what the copy is. For every document whose integers are in the range of `long` (whatever its reals): the copy is made, and it is the
document with every integer converted to `int` and every real read and printed again; in everything else it is equal. -/
theorem C28_copy_exactly (rt : Json.RealText) (f : List UInt8 → List UInt8) (hf : Narrows f) (e : Elem) (okS okK : List UInt8 → Prop)
    (h : Valid okS okK IsLong (fun _ => True) e) :
    ∃ e', Json.copy rt e = some e' ∧ doc e' = doc (mapTexts f rt e) ∧ e'.name = none := by
  obtain ⟨a, b⟩ := Json.copy_map hf e h
  obtain ⟨e', h1, h2, _, h4⟩ := C28_copy_partial id _ okS okK b
  exact ⟨e', a.trans h1, h2, h4⟩

/-- There is such a conversion of texts, and 2^32 + 5 becomes 5 under every one. -/
example : (∃ f, Narrows f) ∧ ∀ f, Narrows f → f (NumSpec.decimalInt 4294967301) = NumSpec.decimalInt 5 := by
  refine ⟨⟨fun v => match Json.getAsInteger v with | some x => NumSpec.decimalInt (x.bmod (2 ^ 32)) | none => v, ?_⟩, ?_⟩
  · intro x h1 h2
    simp only [Json.getAsInteger_ok x h1 h2]
  · intro f hf
    rw [hf 4294967301 (by decide) (by decide)]
    rfl
