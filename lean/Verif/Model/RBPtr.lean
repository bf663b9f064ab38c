import Verif.Model.RBTree
/-!
# Model of libutils/rb-tree.c at the level of pointers

`Verif.Model.RBTree` models a node pointer by a zipper. Here the nodes live in a heap, at addresses, with their `parent`, `left`
and `right` fields, the two sentinels are nodes like any other, and every read and write of a field needs a node that is
allocated and not yet freed: otherwise the operation is undefined (`none`). The functions are transcribed statement by statement.

Simplifications: keys and values are one payload, `none` standing for the two null pointers of a sentinel; a copied payload
stands for the original (`KeyCopy`, `ValueCopy`); `KeyDestroy` and `ValueDestroy` are recorded as a list of payloads handed to
them; a failing `xmalloc` ends the program and is not modelled; the `RBTree` and `RBTreeIterator` structures are values; node
pointers are never null, so the test `if (node)` of `NodeDestroy_` is left out. Asserts are not modelled here (see C12).
-/
namespace RBPtr

/-- The fields of the nodes (`RBNode_`, rb-tree.c:32-40), and which addresses are allocated. -/
structure Heap (P : Type) where
  alive : Nat → Bool
  red : Nat → Bool
  left : Nat → Nat
  right : Nat → Nat
  parent : Nat → Nat
  pay : Nat → Option P

/-- One assignment. -/
def upd {A : Type} (f : Nat → A) (a : Nat) (v : A) : Nat → A := fun x => if x = a then v else f x

section
variable {P : Type}

/-- Reading `a->red` (rb-tree.c:36) -/
def getRed (h : Heap P) (a : Nat) : Option Bool := if h.alive a then some (h.red a) else none
/-- Reading `a->left` (rb-tree.c:38) -/
def getL (h : Heap P) (a : Nat) : Option Nat := if h.alive a then some (h.left a) else none
/-- Reading `a->right` (rb-tree.c:39) -/
def getR (h : Heap P) (a : Nat) : Option Nat := if h.alive a then some (h.right a) else none
/-- Reading `a->parent` (rb-tree.c:37) -/
def getP (h : Heap P) (a : Nat) : Option Nat := if h.alive a then some (h.parent a) else none
/-- Reading `a->key` and `a->value` (rb-tree.c:34-35) -/
def getPay (h : Heap P) (a : Nat) : Option (Option P) := if h.alive a then some (h.pay a) else none
/-- Writing `a->red` -/
def setRed (h : Heap P) (a : Nat) (v : Bool) : Option (Heap P) := if h.alive a then some { h with red := upd h.red a v } else none
/-- Writing `a->left` -/
def setL (h : Heap P) (a v : Nat) : Option (Heap P) := if h.alive a then some { h with left := upd h.left a v } else none
/-- Writing `a->right` -/
def setR (h : Heap P) (a v : Nat) : Option (Heap P) := if h.alive a then some { h with right := upd h.right a v } else none
/-- Writing `a->parent` -/
def setP (h : Heap P) (a v : Nat) : Option (Heap P) := if h.alive a then some { h with parent := upd h.parent a v } else none
/-- Writing `a->key` and `a->value` -/
def setPay (h : Heap P) (a : Nat) (v : Option P) : Option (Heap P) := if h.alive a then some { h with pay := upd h.pay a v } else none
/-- `free(a)`: only an allocated block may be freed. -/
def free (h : Heap P) (a : Nat) : Option (Heap P) := if h.alive a then some { h with alive := upd h.alive a false } else none
/-- `xmalloc` or `xcalloc` giving the block at `a`. -/
def allocAt (h : Heap P) (a : Nat) : Heap P := { h with alive := upd h.alive a true }

/-- `NodeNew_` (rb-tree.c:82-94), the block being at `a`. -/
def nodeNew (h : Heap P) (a nil parent : Nat) (red : Bool) (p : P) : Option (Heap P) := do
  let h := allocAt h a
  let h ← setP h a parent
  let h ← setRed h a red
  let h ← setPay h a (some p)
  let h ← setL h a nil
  setR h a nil

/-- `NodeDestroy_` (rb-tree.c:96-104): also the payload handed to the destructors. -/
def nodeDestroy (h : Heap P) (a : Nat) : Option (Heap P × Option P) := do
  let p ← getPay h a
  let h ← free h a
  some (h, p)

/-- `x->parent = x->left = x->right = nil`, no key, no value, black: one half of `Reset_` (rb-tree.c:108-110 and 112-114). -/
def resetNode (h : Heap P) (x nil : Nat) : Option (Heap P) := do
  let h ← setPay h x none
  let h ← setRed h x false
  let h ← setR h x nil
  let h ← setL h x nil
  setP h x nil

/-- `if (x == x->parent->left) x->parent->left = y; else x->parent->right = y;` (rb-tree.c:279-286, 308-315, 607-614) -/
def relink (h : Heap P) (x y : Nat) : Option (Heap P) := do
  let p ← getP h x
  let l ← getL h p
  if x = l then setL h p y else setR h p y

/-- `if (b != tree->nil) b->parent = x;` (rb-tree.c:272-275, 301-304) -/
def adopt (h : Heap P) (nil b x : Nat) : Option (Heap P) := if b ≠ nil then setP h b x else some h

/-- `RotateLeft_` (rb-tree.c:265-292) -/
def rotateLeft (nil : Nat) (h : Heap P) (x : Nat) : Option (Heap P) := do
  let y ← getR h x
  let yl ← getL h y
  let h ← setR h x yl
  let yl ← getL h y
  let h ← adopt h nil yl x
  let xp ← getP h x
  let h ← setP h y xp
  let h ← relink h x y
  let h ← setL h y x
  setP h x y

/-- `RotateRight_` (rb-tree.c:294-321) -/
def rotateRight (nil : Nat) (h : Heap P) (y : Nat) : Option (Heap P) := do
  let x ← getL h y
  let xr ← getR h x
  let h ← setL h y xr
  let xr ← getR h x
  let h ← adopt h nil xr y
  let yp ← getP h y
  let h ← setP h x yp
  let h ← relink h y x
  let h ← setR h x y
  setP h y x

/-- Case 1 of `PutFix_` (rb-tree.c:339-342, 365-368): also the new `z`. -/
def putCase1 (h : Heap P) (z y : Nat) : Option (Heap P × Nat) := do
  let p ← getP h z
  let h ← setRed h p false
  let h ← setRed h y false
  let p ← getP h z
  let g ← getP h p
  let h ← setRed h g true
  let p ← getP h z
  let g ← getP h p
  some (h, g)

/-- Case 2 of `PutFix_` for a left parent (rb-tree.c:346-351). -/
def putCase2L (nil : Nat) (h : Heap P) (z : Nat) : Option (Heap P × Nat) := do
  let p ← getP h z
  let r ← getR h p
  if z = r then do
    let h ← rotateLeft nil h p
    some (h, p)
  else some (h, z)

/-- Case 2 of `PutFix_` for a right parent (rb-tree.c:372-377). -/
def putCase2R (nil : Nat) (h : Heap P) (z : Nat) : Option (Heap P × Nat) := do
  let p ← getP h z
  let l ← getL h p
  if z = l then do
    let h ← rotateRight nil h p
    some (h, p)
  else some (h, z)

/-- Case 3 of `PutFix_` (rb-tree.c:354-356, 380-382), with the rotation as a parameter. -/
def putCase3 (rot : Heap P → Nat → Option (Heap P)) (h : Heap P) (z : Nat) : Option (Heap P) := do
  let p ← getP h z
  let h ← setRed h p false
  let p ← getP h z
  let g ← getP h p
  let h ← setRed h g true
  let p ← getP h z
  let g ← getP h p
  rot h g

/-- The body of the loop of `PutFix_` for a left parent (rb-tree.c:335-357). -/
def putBodyL (nil : Nat) (h : Heap P) (z : Nat) : Option (Heap P × Nat) := do
  let p ← getP h z
  let g ← getP h p
  let y ← getR h g
  let c ← getRed h y
  if c then putCase1 h z y
  else do
    let (h, z) ← putCase2L nil h z
    let h ← putCase3 (rotateRight nil) h z
    some (h, z)

/-- The body of the loop of `PutFix_` for a right parent (rb-tree.c:361-383). -/
def putBodyR (nil : Nat) (h : Heap P) (z : Nat) : Option (Heap P × Nat) := do
  let p ← getP h z
  let g ← getP h p
  let y ← getL h g
  let c ← getRed h y
  if c then putCase1 h z y
  else do
    let (h, z) ← putCase2R nil h z
    let h ← putCase3 (rotateLeft nil) h z
    some (h, z)

/-- The body of the loop of `PutFix_` (rb-tree.c:333-384). -/
def putBody (nil : Nat) (h : Heap P) (z : Nat) : Option (Heap P × Nat) := do
  let p ← getP h z
  let g ← getP h p
  let gl ← getL h g
  if p = gl then putBodyL nil h z else putBodyR nil h z

/-- `PutFix_` (rb-tree.c:329-391); the first argument bounds the iterations, running out is `none`. -/
def putFix (root nil : Nat) : Nat → Heap P → Nat → Option (Heap P)
  | 0, _, _ => none
  | n + 1, h, z => do
    let p ← getP h z
    let c ← getRed h p
    if c then do
      let (h, z) ← putBody nil h z
      putFix root nil n h z
    else do
      let top ← getL h root
      setRed h top false

/-- The first loop of `Next_` (rb-tree.c:436). -/
def leftmost (nil : Nat) (h : Heap P) : Nat → Nat → Option Nat
  | 0, _ => none
  | n + 1, curr => do
    let l ← getL h curr
    if l ≠ nil then leftmost nil h n l else some curr

/-- The second loop of `Next_` (rb-tree.c:442). -/
def climb (h : Heap P) : Nat → Nat → Nat → Option Nat
  | 0, _, _ => none
  | n + 1, node, curr => do
    let r ← getR h curr
    if node = r then do
      let p ← getP h curr
      climb h n curr p
    else some curr

/-- `Next_` (rb-tree.c:431-445) -/
def next (root nil fuel : Nat) (h : Heap P) (node : Nat) : Option Nat := do
  let r ← getR h node
  if r ≠ nil then leftmost nil h fuel r
  else do
    let p ← getP h node
    let curr ← climb h fuel node p
    some (if curr ≠ root then curr else nil)

/-- Lines 492-498 of `RemoveFix_`: also the new `w`. -/
def sibL (nil : Nat) (h : Heap P) (x w : Nat) : Option (Heap P × Nat) := do
  let c ← getRed h w
  if c then do
    let h ← setRed h w false
    let p ← getP h x
    let h ← setRed h p true
    let p ← getP h x
    let h ← rotateLeft nil h p
    let p ← getP h x
    let w ← getR h p
    some (h, w)
  else some (h, w)

/-- Lines 524-530 of `RemoveFix_`. -/
def sibR (nil : Nat) (h : Heap P) (x w : Nat) : Option (Heap P × Nat) := do
  let c ← getRed h w
  if c then do
    let h ← setRed h w false
    let p ← getP h x
    let h ← setRed h p true
    let p ← getP h x
    let h ← rotateRight nil h p
    let p ← getP h x
    let w ← getL h p
    some (h, w)
  else some (h, w)

/-- Lines 507-513 of `RemoveFix_`. -/
def nephewL (nil : Nat) (h : Heap P) (x w : Nat) : Option (Heap P × Nat) := do
  let r ← getR h w
  let c ← getRed h r
  if !c then do
    let l ← getL h w
    let h ← setRed h l false
    let h ← setRed h w true
    let h ← rotateRight nil h w
    let p ← getP h x
    let w ← getR h p
    some (h, w)
  else some (h, w)

/-- Lines 539-545 of `RemoveFix_`. -/
def nephewR (nil : Nat) (h : Heap P) (x w : Nat) : Option (Heap P × Nat) := do
  let l ← getL h w
  let c ← getRed h l
  if !c then do
    let r ← getR h w
    let h ← setRed h r false
    let h ← setRed h w true
    let h ← rotateLeft nil h w
    let p ← getP h x
    let w ← getL h p
    some (h, w)
  else some (h, w)

/-- Lines 514-517 of `RemoveFix_`. -/
def lastL (nil : Nat) (h : Heap P) (x w : Nat) : Option (Heap P) := do
  let p ← getP h x
  let c ← getRed h p
  let h ← setRed h w c
  let p ← getP h x
  let h ← setRed h p false
  let r ← getR h w
  let h ← setRed h r false
  let p ← getP h x
  rotateLeft nil h p

/-- Lines 547-550 of `RemoveFix_`. -/
def lastR (nil : Nat) (h : Heap P) (x w : Nat) : Option (Heap P) := do
  let p ← getP h x
  let c ← getRed h p
  let h ← setRed h w c
  let p ← getP h x
  let h ← setRed h p false
  let l ← getL h w
  let h ← setRed h l false
  let p ← getP h x
  rotateRight nil h p

/-- `!w->left->red && !w->right->red` (rb-tree.c:500, 532). Both are read here; both can be read whenever one can. -/
def bothBlack (h : Heap P) (w : Nat) : Option Bool := do
  let l ← getL h w
  let lr ← getRed h l
  let r ← getR h w
  let rr ← getRed h r
  some (!lr && !rr)

/-- The body of the loop of `RemoveFix_` after the sibling is found, `x` a left child (rb-tree.c:500-519): heap and new `x`.
`top` is the variable `root`. -/
def fixL (nil top : Nat) (h : Heap P) (x w : Nat) : Option (Heap P × Nat) := do
  let b ← bothBlack h w
  if b then do
    let h ← setRed h w true
    let p ← getP h x
    some (h, p)
  else do
    let (h, w) ← nephewL nil h x w
    let h ← lastL nil h x w
    some (h, top)

/-- The same for a right child (rb-tree.c:532-552). -/
def fixR (nil top : Nat) (h : Heap P) (x w : Nat) : Option (Heap P × Nat) := do
  let b ← bothBlack h w
  if b then do
    let h ← setRed h w true
    let p ← getP h x
    some (h, p)
  else do
    let (h, w) ← nephewR nil h x w
    let h ← lastR nil h x w
    some (h, top)

/-- The body of the loop of `RemoveFix_` (rb-tree.c:489-553). -/
def removeBody (nil top : Nat) (h : Heap P) (x : Nat) : Option (Heap P × Nat) := do
  let p ← getP h x
  let l ← getL h p
  if x = l then do
    let w ← getR h p
    let (h, w) ← sibL nil h x w
    fixL nil top h x w
  else do
    let w ← getL h p
    let (h, w) ← sibR nil h x w
    fixR nil top h x w

/-- The loop of `RemoveFix_` and line 556 (rb-tree.c:487-556); `top` is the variable `root`. -/
def removeLoop (nil top : Nat) : Nat → Heap P → Nat → Option (Heap P)
  | 0, _, _ => none
  | n + 1, h, x => do
    let c ← getRed h x
    if x = top ∨ c = true then setRed h x false
    else do
      let (h, x) ← removeBody nil top h x
      removeLoop nil top n h x

/-- `RemoveFix_` (rb-tree.c:480-558) -/
def removeFix (root nil fuel : Nat) (h : Heap P) (x : Nat) : Option (Heap P) := do
  let top ← getL h root
  removeLoop nil top fuel h x

/-- Lines 573-588 of `RBTreeRemove`: `x` takes the place of `y`. -/
def unlink (root : Nat) (h : Heap P) (x y : Nat) : Option (Heap P) := do
  let p ← getP h y
  let h ← setP h x p
  let xp ← getP h x
  if root = xp then setL h root x
  else relink h y x

/-- Lines 600-614 of `RBTreeRemove`: `y` takes over the links and the color of `z`. -/
def takeOver (h : Heap P) (z y : Nat) : Option (Heap P) := do
  let zl ← getL h z
  let h ← setL h y zl
  let zr ← getR h z
  let h ← setR h y zr
  let zp ← getP h z
  let h ← setP h y zp
  let zc ← getRed h z
  let h ← setRed h y zc
  let zl ← getL h z
  let h ← setP h zl y
  let zr ← getR h z
  let h ← setP h zr y
  relink h z y

/-- `if (!y->red) RemoveFix_(tree, x);` (rb-tree.c:595-598, 619-622) -/
def fixIfBlack (root nil fuel : Nat) (h : Heap P) (x y : Nat) : Option (Heap P) := do
  let c ← getRed h y
  if !c then removeFix root nil fuel h x else some h

/-- `TreeDestroy_` (rb-tree.c:147-155), which is the same function as `ClearRecursive_` (rb-tree.c:632-643): the payloads handed
to the destructors, in order. -/
def destroyRec (nil : Nat) : Nat → Heap P → Nat → Option (Heap P × List (Option P))
  | 0, _, _ => none
  | n + 1, h, x =>
    if x = nil then some (h, [])
    else do
      let l ← getL h x
      let (h, d1) ← destroyRec nil n h l
      let r ← getR h x
      let (h, d2) ← destroyRec nil n h r
      let (h, d3) ← nodeDestroy h x
      some (h, d1 ++ d2 ++ [d3])

end

/-- The tree (rb-tree.c:42-55) and the memory it lives in. -/
structure St (K V : Type) where
  h : Heap (K × V)
  root : Nat
  nil : Nat
  size : Nat

section
variable {K V : Type}

/-- `Reset_` (rb-tree.c:106-117) -/
def reset (s : St K V) : Option (St K V) := do
  let h ← resetNode s.h s.nil s.nil
  let h ← resetNode h s.root s.nil
  some { s with h := h, size := 0 }

/-- `RBTreeNew` (rb-tree.c:119-145); `malloc` chooses the address of a new block from what is allocated. -/
def new (malloc : (Nat → Bool) → Nat) (h : Heap (K × V)) : Option (St K V) :=
  let nil := malloc h.alive
  let h := allocAt h nil
  let root := malloc h.alive
  let h := allocAt h root
  reset ⟨h, root, nil, 0⟩

/-- `RBTreeDestroy` (rb-tree.c:253-263) of a tree that is not null; the memory afterwards, and the payloads destroyed. -/
def destroy (s : St K V) : Option (Heap (K × V) × List (Option (K × V))) := do
  let top ← getL s.h s.root
  let (h, d) ← destroyRec s.nil (s.size + 1) s.h top
  let h ← free h s.root
  let h ← free h s.nil
  some (h, d)

/-- The descent of `RBTreePut` (rb-tree.c:396-412): the last node, and whether its key is the same. -/
def putDescend (cmp : K → K → Int) (nil : Nat) (h : Heap (K × V)) (key : K) : Nat → Nat → Nat → Option (Nat × Bool)
  | 0, _, _ => none
  | n + 1, y, x =>
    if x = nil then some (y, false)
    else do
      let p ← getPay h x
      let p ← p
      if cmp key p.1 = 0 then some (x, true)
      else if cmp key p.1 < 0 then do
        let l ← getL h x
        putDescend cmp nil h key n x l
      else do
        let r ← getR h x
        putDescend cmp nil h key n x r

/-- Lines 416-423 of `RBTreePut`. -/
def putLink (cmp : K → K → Int) (root : Nat) (h : Heap (K × V)) (key : K) (y z : Nat) : Option (Heap (K × V)) :=
  if y = root then setL h y z
  else do
    let p ← getPay h y
    let p ← p
    if cmp key p.1 < 0 then setL h y z else setR h y z

/-- Lines 405-409 of `RBTreePut`. -/
def putReplace (s : St K V) (x : Nat) (key : K) (value : V) : Option (St K V × Bool × List (Option (K × V))) := do
  let old ← getPay s.h x
  let h ← setPay s.h x (some (key, value))
  some ({ s with h := h }, true, [old])

/-- Lines 414-428 of `RBTreePut`. -/
def putNew (malloc : (Nat → Bool) → Nat) (cmp : K → K → Int) (s : St K V) (y : Nat) (key : K) (value : V) :
    Option (St K V × Bool × List (Option (K × V))) := do
  let z := malloc s.h.alive
  let h ← nodeNew s.h z s.nil y true (key, value)
  let h ← putLink cmp s.root h key y z
  let h ← putFix s.root s.nil (s.size + 1) h z
  some ({ s with h := h, size := s.size + 1 }, false, [])

/-- `RBTreePut` (rb-tree.c:394-429): new state, result, destroyed payloads. -/
def put (malloc : (Nat → Bool) → Nat) (cmp : K → K → Int) (s : St K V) (key : K) (value : V) :
    Option (St K V × Bool × List (Option (K × V))) := do
  let x ← getL s.h s.root
  let (y, found) ← putDescend cmp s.nil s.h key (s.size + 1) s.root x
  if found then putReplace s y key value else putNew malloc cmp s y key value

/-- The loop of `Get_` (rb-tree.c:452-470) -/
def getLoop (cmp : K → K → Int) (nil : Nat) (h : Heap (K × V)) (key : K) : Nat → Nat → Option Nat
  | 0, _ => none
  | n + 1, curr =>
    if curr = nil then some curr
    else do
      let p ← getPay h curr
      let p ← p
      if cmp key p.1 = 0 then some curr
      else if cmp key p.1 < 0 then do
        let l ← getL h curr
        getLoop cmp nil h key n l
      else do
        let r ← getR h curr
        getLoop cmp nil h key n r

/-- `Get_` (rb-tree.c:447-471) -/
def getNode (cmp : K → K → Int) (s : St K V) (key : K) : Option Nat := do
  let top ← getL s.h s.root
  getLoop cmp s.nil s.h key (s.size + 1) top

/-- `RBTreeGet` (rb-tree.c:473-477); the inner `none` is NULL. -/
def get (cmp : K → K → Int) (s : St K V) (key : K) : Option (Option V) := do
  let node ← getNode cmp s key
  if node ≠ s.nil then do
    let p ← getPay s.h node
    some (p.map (·.2))
  else some none

/-- `y` and `x` of `RBTreeRemove` (rb-tree.c:570-571). -/
def removeYX (s : St K V) (z : Nat) : Option (Nat × Nat) := do
  let zl ← getL s.h z
  let zr ← getR s.h z
  let y ← if zl = s.nil ∨ zr = s.nil then some z else next s.root s.nil (s.size + 1) s.h z
  let yl ← getL s.h y
  let x ← if yl = s.nil then getR s.h y else getL s.h y
  some (y, x)

/-- Lines 573-630 of `RBTreeRemove`. Both branches of `if (y != z)` begin with the same `if (!y->red) RemoveFix_(tree, x);`, which is
written once here. -/
def removeNode (s : St K V) (z y x : Nat) : Option (St K V × Bool × List (Option (K × V))) := do
  let h ← unlink s.root s.h x y
  let h ← fixIfBlack s.root s.nil (2 * s.size + 3) h x y
  let h ← if z ≠ y then takeOver h z y else some h
  let (h, d) ← nodeDestroy h z
  if s.size = 0 then none else
  some ({ s with h := h, size := s.size - 1 }, true, [d])

/-- `RBTreeRemove` (rb-tree.c:560-630) -/
def remove (cmp : K → K → Int) (s : St K V) (key : K) : Option (St K V × Bool × List (Option (K × V))) := do
  let z ← getNode cmp s key
  if z = s.nil then some (s, false, [])
  else do
    let (y, x) ← removeYX s z
    removeNode s z y x

/-- `RBTreeClear` (rb-tree.c:645-653): the recursion starts at the sentinel, whose null key and value go to the destructors. -/
def clear (malloc : (Nat → Bool) → Nat) (s : St K V) : Option (St K V × List (Option (K × V))) := do
  let (h, d) ← destroyRec s.nil (s.size + 2) s.h s.root
  let root := malloc h.alive
  let h := allocAt h root
  let s ← reset { s with h := h, root := root }
  some (s, d)

/-- `RBTreeIteratorNew` (rb-tree.c:660-668): `iter->curr`. -/
def iterNew (s : St K V) : Option Nat := leftmost s.nil s.h (s.size + 1) s.root

/-- `RBTreeIteratorNext` with `Peek_` (rb-tree.c:670-706): the pair delivered, if any, and the new `iter->curr`. -/
def iterNext (s : St K V) (curr : Nat) : Option (Option (Option (K × V)) × Nat) :=
  if s.size = 0 then some (none, curr)
  else if curr = s.nil then some (none, curr)
  else do
    let p ← getPay s.h curr
    let nxt ← next s.root s.nil (s.size + 1) s.h curr
    some (some p, nxt)

end
end RBPtr
