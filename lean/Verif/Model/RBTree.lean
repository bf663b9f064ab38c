import Verif.Model.Mem
/-!
# Model of libutils/rb-tree.c

A node pointer together with the tree it lives in (reachable through `parent` links) is modelled by a *zipper*: the subtree at
the pointer and the list of frames from its parent up to the root sentinel.  `tree->nil` is `T.nil` (always black), the root
sentinel is the end of the frame list.  Following `parent` beyond the sentinel, rotating around a missing child, or painting
the sentinel red is reported as undefined (`none`).  `KeyCopy`/`ValueCopy` are taken as producing a value that stands for the
original.  Keys and values are one payload `P` in the balancing code, which never looks at them.
-/
namespace RB

/-- `RBNode_` (rb-tree.c:32-40), as a tree: color, left, payload, right. -/
inductive T (P : Type) where
  | nil
  | node (red : Bool) (l : T P) (p : P) (r : T P)

/-- One step up: which child the hole is, and the parent's color, payload and other child. -/
structure Frame (P : Type) where
  left : Bool
  red : Bool
  pay : P
  sib : T P

/-- `node->red`; the sentinel nil is never red. -/
def T.isRed {P : Type} : T P → Bool
  | .nil => false
  | .node r _ _ _ => r

/-- `node->red = false` -/
def T.blacken {P : Type} : T P → T P
  | .nil => .nil
  | .node _ l p r => .node false l p r

/-- The parent's subtree. -/
def up {P : Type} (t : T P) (f : Frame P) : T P :=
  if f.left then .node f.red t f.pay f.sib else .node f.red f.sib f.pay t

/-- The whole tree. -/
def plug {P : Type} (t : T P) : List (Frame P) → T P
  | [] => t
  | f :: fs => plug (up t f) fs

/-- `RotateLeft_` (rb-tree.c:265-292) on the subtree of `x`. -/
def rotateLeft {P : Type} : T P → Option (T P)
  | .node r a p (.node r2 b q c) => some (.node r2 (.node r a p b) q c)
  | _ => none

/-- `RotateRight_` (rb-tree.c:294-321) on the subtree of `y`. -/
def rotateRight {P : Type} : T P → Option (T P)
  | .node r (.node r2 a p b) q c => some (.node r2 a p (.node r b q c))
  | _ => none

/-- `PutFix_` (rb-tree.c:329-391). `fuel` bounds the iterations of the `while`; running out is reported as `none`, so a
successful result shows termination. -/
def putFix {P : Type} : Nat → T P → List (Frame P) → Option (T P)
  | 0, _, _ => none
  | _ + 1, z, [] => some (plug z []).blacken       -- parent is the sentinel, not red; line 387
  | fuel + 1, z, f :: ctx =>
    if f.red then
      match ctx with
      | [] => none                                    -- grandparent is the sentinel
      | g :: rest =>
        if g.left then                                -- z->parent == z->parent->parent->left
          let y := g.sib
          if y.isRed then                             -- case 1
            putFix fuel (up (up z { f with red := false }) { g with red := true, sib := y.blacken }) rest
          else if !f.left then                        -- case 2, then case 3
            match rotateLeft (up z f) with
            | some (.node _ z' q s) =>                -- z = z->parent; the rotated-up node is its new parent
              match rotateRight (up (.node false z' q s) { g with red := true }) with
              | some (.node r z'' q' s') => putFix fuel z'' (⟨true, r, q', s'⟩ :: rest)
              | _ => none
            | _ => none
          else                                        -- case 3
            match rotateRight (up (up z { f with red := false }) { g with red := true }) with
            | some (.node r z'' q' s') => putFix fuel z'' (⟨true, r, q', s'⟩ :: rest)
            | _ => none
        else
          let y := g.sib
          if y.isRed then
            putFix fuel (up (up z { f with red := false }) { g with red := true, sib := y.blacken }) rest
          else if f.left then
            match rotateRight (up z f) with
            | some (.node _ s q z') =>
              match rotateLeft (up (.node false s q z') { g with red := true }) with
              | some (.node r s' q' z'') => putFix fuel z'' (⟨false, r, q', s'⟩ :: rest)
              | _ => none
            | _ => none
          else
            match rotateLeft (up (up z { f with red := false }) { g with red := true }) with
            | some (.node r s' q' z'') => putFix fuel z'' (⟨false, r, q', s'⟩ :: rest)
            | _ => none
    else some (plug z (f :: ctx)).blacken

/-- The tree object: the real root (`root->left`) and `size` (rb-tree.c:42-55). -/
structure Tree (K V : Type) where
  root : T (K × V)
  size : Nat

/-- `RBTreeNew` (rb-tree.c:119-145) -/
def new {K V : Type} : Tree K V := ⟨.nil, 0⟩

/-- The descent of `RBTreePut` (rb-tree.c:396-412): either an equal node (the tree with the new pair
in its place, and the destroyed pair) or the insertion point. -/
def putDescend {K V : Type} (cmp : K → K → Int) (key : K) (value : V) :
    T (K × V) → List (Frame (K × V)) → (T (K × V) × (K × V)) ⊕ (List (Frame (K × V)))
  | .nil, ctx => .inr ctx
  | .node red l p r, ctx =>
    if cmp key p.1 = 0 then .inl (plug (.node red l (key, value) r) ctx, p)
    else if cmp key p.1 < 0 then putDescend cmp key value l (⟨true, red, p, r⟩ :: ctx)
    else putDescend cmp key value r (⟨false, red, p, l⟩ :: ctx)

/-- rb-tree.c:416-423: the new node becomes the left child of `y` when `y` is the sentinel or the key is smaller. -/
def putSide {K V : Type} (cmp : K → K → Int) (key : K) : List (Frame (K × V)) → List (Frame (K × V))
  | [] => []
  | f :: fs => { f with left := decide (cmp key f.pay.1 < 0) } :: fs

/-- `RBTreePut` (rb-tree.c:394-429): new tree, return value, destroyed pairs. -/
def put {K V : Type} (cmp : K → K → Int) (t : Tree K V) (key : K) (value : V) : Option (Tree K V × Bool × List (K × V)) :=
  match putDescend cmp key value t.root [] with
  | .inl (root, old) => some ({ t with root := root }, true, [old])
  | .inr ctx => do
    let z := T.node true .nil (key, value) .nil
    let root ← putFix (ctx.length + 1) z (putSide cmp key ctx)
    some (⟨root, t.size + 1⟩, false, [])

/-- `Get_` (rb-tree.c:447-471) -/
def getNode {K V : Type} (cmp : K → K → Int) (key : K) :
    T (K × V) → List (Frame (K × V)) → Option (T (K × V) × List (Frame (K × V)))
  | .nil, _ => none
  | .node red l p r, ctx =>
    if cmp key p.1 = 0 then some (.node red l p r, ctx)
    else if cmp key p.1 < 0 then getNode cmp key l (⟨true, red, p, r⟩ :: ctx)
    else getNode cmp key r (⟨false, red, p, l⟩ :: ctx)

/-- `RBTreeGet` (rb-tree.c:473-477); `none` is NULL. -/
def get {K V : Type} (cmp : K → K → Int) (t : Tree K V) (key : K) : Option V :=
  match getNode cmp key t.root [] with
  | some (.node _ _ p _, _) => some p.2
  | _ => none

/-- The body of the loop of `RemoveFix_` after the red-sibling rotation, for `x` a left child (rb-tree.c:500-519).
`loop` is the next iteration of the `while`. In the last branch the code sets `x = root` (line 518), which leaves the loop and
paints that node black (line 556): it is `x->parent` when that was the root when `RemoveFix_` started (already painted
black at line 515), else the top node. -/
def fixLeft {P : Type} (loop : T P → List (Frame P) → Bool → Option (T P)) (x : T P) (f : Frame P) (rest : List (Frame P))
    (parentIsRoot : Bool) : Option (T P) :=
  match f.sib with
  | .nil => none
  | .node wred wl wp wr =>
    if !wl.isRed && !wr.isRed then                                                   -- lines 500-504
      loop (up x { f with sib := .node true wl wp wr }) rest parentIsRoot
    else
      let w2 : Option (T P) :=
        if !wr.isRed then rotateRight (.node true wl.blacken wp wr) else some (.node wred wl wp wr)  -- 507-513
      match w2 with
      | some (.node _ wl wp wr) =>
        match rotateLeft (up x { f with red := false, sib := .node f.red wl wp wr.blacken }) with    -- 514-517
        | some top => if parentIsRoot then some (plug top rest) else some (plug top rest).blacken
        | none => none
      | _ => none

/-- The mirror image, for `x` a right child (rb-tree.c:532-552). -/
def fixRight {P : Type} (loop : T P → List (Frame P) → Bool → Option (T P)) (x : T P) (f : Frame P) (rest : List (Frame P))
    (parentIsRoot : Bool) : Option (T P) :=
  match f.sib with
  | .nil => none
  | .node wred wl wp wr =>
    if !wl.isRed && !wr.isRed then
      loop (up x { f with sib := .node true wl wp wr }) rest parentIsRoot
    else
      let w2 : Option (T P) :=
        if !wl.isRed then rotateLeft (.node true wl wp wr.blacken) else some (.node wred wl wp wr)
      match w2 with
      | some (.node _ wl wp wr) =>
        match rotateRight (up x { f with red := false, sib := .node f.red wl.blacken wp wr }) with
        | some top => if parentIsRoot then some (plug top rest) else some (plug top rest).blacken
        | none => none
      | _ => none

/-- `RemoveFix_` (rb-tree.c:480-558). `isRoot` is the outcome of `x == root` for the variable `root` read once at the start
(line 484): true when `x` is the node that was the root then. `fuel` as in `putFix`. -/
def removeFix {P : Type} : Nat → T P → List (Frame P) → Bool → Option (T P)
  | 0, _, _, _ => none
  | fuel + 1, x, ctx, isRoot =>
    if isRoot || x.isRed then some (plug x.blacken ctx)
    else match ctx with
      | [] => none
      | f :: rest =>
        if f.left then                                                     -- x == x->parent->left
          if f.sib.isRed then                                              -- lines 492-498
            match rotateLeft (up x { f with red := true, sib := f.sib.blacken }) with
            | some (.node r (.node pr _ p w) q s) =>
              fixLeft (removeFix fuel) x ⟨true, pr, p, w⟩ (⟨true, r, q, s⟩ :: rest) rest.isEmpty
            | _ => none
          else fixLeft (removeFix fuel) x f rest rest.isEmpty
        else
          if f.sib.isRed then                                              -- lines 524-530
            match rotateRight (up x { f with red := true, sib := f.sib.blacken }) with
            | some (.node r s q (.node pr w p _)) =>
              fixRight (removeFix fuel) x ⟨false, pr, p, w⟩ (⟨false, r, q, s⟩ :: rest) rest.isEmpty
            | _ => none
          else fixRight (removeFix fuel) x f rest rest.isEmpty

/-- The descent in `Next_` to the leftmost node (rb-tree.c:433-438). -/
def leftmost {P : Type} : T P → List (Frame P) → T P × List (Frame P)
  | .node red (.node red2 l2 p2 r2) p r, ctx => leftmost (.node red2 l2 p2 r2) (⟨true, red, p, r⟩ :: ctx)
  | t, ctx => (t, ctx)

/-- The climb in `Next_` (rb-tree.c:439-444): `none` is `tree->nil`. -/
def climb {P : Type} (t : T P) : List (Frame P) → Option (T P × List (Frame P))
  | [] => none
  | f :: fs => if f.left then some (up t f, fs) else climb (up t f) fs

/-- `Next_` (rb-tree.c:431-445) -/
def next {P : Type} : T P × List (Frame P) → Option (T P × List (Frame P))
  | (.node red l p (.node red2 l2 p2 r2), ctx) => some (leftmost (.node red2 l2 p2 r2) (⟨false, red, p, l⟩ :: ctx))
  | (t, ctx) => climb t ctx

/-- `RBTreeRemove` (rb-tree.c:560-630); also returns the destroyed pair.
Simplification: the code runs `RemoveFix_` with `z` still in place and afterwards lets `y` take over `z`'s links and color
(lines 598-612); the model stores `y`'s payload in `z`'s place before running the fix, which is the same because `RemoveFix_`
looks only at colors and links (in the model it is polymorphic in the payload). -/
def remove {K V : Type} (cmp : K → K → Int) (t : Tree K V) (key : K) : Option (Tree K V × Option (K × V)) :=
  match getNode cmp key t.root [] with
  | none => some (t, none)
  | some (.nil, _) => none
  | some (.node zred zl zp zr, ctx) => do
    let root ← match zl, zr with
      | .node _ _ _ _, .node _ _ _ _ =>
        match next (.node zred zl zp zr, []) with                 -- y = Next_(z), frames up to z
        | some (.node yred yl yp yr, yctx) =>
          let x := match yl with | .nil => yr | _ => yl           -- line 571
          -- the frame of z is the last of yctx; it gets y's payload
          let yctx' := yctx.dropLast ++ (yctx.getLast?.map (fun f => { f with pay := yp })).toList ++ ctx
          if yred then some (plug x yctx') else removeFix (2 * yctx'.length + 2) x yctx' yctx'.isEmpty
        | _ => none
      | _, _ =>
        let x := match zl with | .nil => zr | _ => zl
        if zred then some (plug x ctx) else removeFix (2 * ctx.length + 2) x ctx ctx.isEmpty
    if t.size = 0 then none else
    some (⟨root, t.size - 1⟩, some zp)

/-- `RBTreeClear` (rb-tree.c:645-653): payloads destroyed, in post-order (rb-tree.c:632-643); afterwards the code also calls
the destructors on the NULL payload of the root sentinel, which is not modelled. -/
def T.post {P : Type} : T P → List P
  | .nil => []
  | .node _ l p r => l.post ++ r.post ++ [p]

/-- `RBTreeClear` -/
def clear {K V : Type} (t : Tree K V) : Tree K V × List (K × V) := (new, t.root.post)

/-- `RBTreeIteratorNew` (rb-tree.c:660-668) on a non-empty tree. -/
def iterStart {P : Type} (t : T P) : Option (T P × List (Frame P)) :=
  match t with
  | .nil => none
  | t => some (leftmost t [])

/-- Calling `RBTreeIteratorNext` (rb-tree.c:695-706) until it returns false; running out of `fuel` is `none`. -/
def drain {P : Type} : Nat → Option (T P × List (Frame P)) → Option (List P)
  | _, none => some []
  | 0, some _ => none
  | fuel + 1, some (.node red l p r, ctx) => do
    let rest ← drain fuel (next (.node red l p r, ctx))
    some (p :: rest)
  | _ + 1, some (.nil, _) => none

/-- A complete iteration. `Peek_` (rb-tree.c:670-693) returns false at once when `size == 0`. -/
def iterate {K V : Type} (t : Tree K V) : Option (List (K × V)) :=
  if t.size = 0 then some [] else drain (t.size + 1) (iterStart t.root)

/-- The loop of `RBTreeCopy` (rb-tree.c:193-200): the order in which nodes are put, `n` iterations from `i`, with
`half = node_count / 2`. `nodes` is the heap array of node pointers. -/
def copyLoop {P : Type} (nodes : List P) (half : Nat) : Nat → Nat → Option (List P)
  | _, 0 => some []
  | i, n + 1 => do
    let a ← CMem.read nodes (half + i)
    let b ← CMem.read nodes (half - i - 1)
    let rest ← copyLoop nodes half (i + 1) n
    some (a :: b :: rest)

/-- The order in which `RBTreeCopy` puts the selected nodes (rb-tree.c:177-200). -/
def copyOrder {P : Type} (nodes : List P) : Option (List P) :=
  if nodes.length % 2 ≠ 0 then do
    let mid ← CMem.read nodes (nodes.length / 2)
    let count := nodes.length - 1
    let rest ← copyLoop nodes (count / 2) 0 (count / 2)
    some (mid :: rest)
  else copyLoop nodes (nodes.length / 2) 0 (nodes.length / 2)

/-- Putting pairs one after the other. -/
def putAll {K V : Type} (cmp : K → K → Int) : Tree K V → List (K × V) → Option (Tree K V)
  | t, [] => some t
  | t, p :: ps => do
    let (t, _) ← put cmp t p.1 p.2
    putAll cmp t ps

/-- `RBTreeCopy` (rb-tree.c:157-208). On an empty tree the loop at line 164 starts at the root sentinel, which is not nil, and
stores it into a zero-sized allocation: undefined. -/
def copy {K V : Type} (cmp : K → K → Int) (filter : K × V → Bool) (t : Tree K V) : Option (Tree K V) :=
  match t.root with
  | .nil => none
  | root => do
    let all ← drain (t.size + 1) (iterStart root)
    let order ← copyOrder (all.filter filter)
    putAll cmp new order

/-- The comparison loop of `RBTreeEqual` (rb-tree.c:234-245), on the pairs produced by the two iterators. -/
def equalLoop {K V : Type} (cmp : K → K → Int) (vcmp : V → V → Int) : List (K × V) → List (K × V) → Bool
  | a :: as, b :: bs => if cmp a.1 b.1 ≠ 0 ∨ vcmp a.2 b.2 ≠ 0 then false else equalLoop cmp vcmp as bs
  | _, _ => true

/-- `RBTreeEqual` (rb-tree.c:210-251) for two different tree objects with the same comparators. -/
def equal {K V : Type} (cmp : K → K → Int) (vcmp : V → V → Int) (a b : Tree K V) : Option Bool :=
  if a.size ≠ b.size then some false
  else do
    let la ← iterate a
    let lb ← iterate b
    some (equalLoop cmp vcmp la lb)

end RB
