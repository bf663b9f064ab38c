import Verif.Model.PcreJob
/-! # Model of libutils/libcrypto-compat.c: replacements for the accessors OpenSSL before 1.1 lacks

Numbers (BIGNUM) are blocks; a key or signature is an object with named fields, each NULL or a block. `none`: undefined behaviour (a number freed twice). -/
namespace CryptoCompat

/-- The fields the functions touch. -/
inductive Slot where
  | n | e | d | p | q | dmp1 | dmq1 | iqmp | g | pub_key | priv_key | r | s
  deriving DecidableEq

/-- Numbers allocated, the fields of every object, and `length` of the Diffie-Hellman objects. -/
structure W where
  live : List Nat
  slots : Nat → Slot → Option Nat
  length : Nat → Int

/-- `BN_free`, `BN_clear_free`: NULL is allowed. -/
def bnFree (w : W) : Option Nat → Option W
  | none => some w
  | some b => if b ∈ w.live then some { w with live := w.live.erase b } else none

/-- Storing in a field. -/
def store (w : W) (o : Nat) (x : Slot) (v : Option Nat) : W :=
  { w with slots := fun o' x' => if o' = o ∧ x' = x then v else w.slots o' x' }

/-- `if (v != NULL) { BN_free(r->x); r->x = v; }` (e.g. libcrypto-compat.c:41-44). -/
def assign (w : W) (o : Nat) (x : Slot) (v : Option Nat) : Option W :=
  match v with
  | none => some w
  | some b => (bnFree w (w.slots o x)).map fun w => store w o x (some b)

/-- `r->x == NULL && x == NULL`. -/
def missing (w : W) (o : Nat) (x : Slot) (v : Option Nat) : Bool := (w.slots o x).isNone && v.isNone

/-- `RSA_set0_key` (libcrypto-compat.c:30-54). -/
def rsaSetKey (w : W) (o : Nat) (n e d : Option Nat) : Option (W × Int) :=
  if missing w o .n n || missing w o .e e then some (w, 0)
  else do
    let w ← assign w o .n n
    let w ← assign w o .e e
    let w ← assign w o .d d
    some (w, 1)

/-- `RSA_set0_factors` (libcrypto-compat.c:56-75). -/
def rsaSetFactors (w : W) (o : Nat) (p q : Option Nat) : Option (W × Int) :=
  if missing w o .p p || missing w o .q q then some (w, 0)
  else do
    let w ← assign w o .p p
    let w ← assign w o .q q
    some (w, 1)

/-- `RSA_set0_crt_params` (libcrypto-compat.c:77-101). -/
def rsaSetCrt (w : W) (o : Nat) (dmp1 dmq1 iqmp : Option Nat) : Option (W × Int) :=
  if missing w o .dmp1 dmp1 || missing w o .dmq1 dmq1 || missing w o .iqmp iqmp then some (w, 0)
  else do
    let w ← assign w o .dmp1 dmp1
    let w ← assign w o .dmq1 dmq1
    let w ← assign w o .iqmp iqmp
    some (w, 1)

/-- `DSA_set0_pqg` (libcrypto-compat.c:145-169). -/
def dsaSetPqg (w : W) (o : Nat) (p q g : Option Nat) : Option (W × Int) :=
  if missing w o .p p || missing w o .q q || missing w o .g g then some (w, 0)
  else do
    let w ← assign w o .p p
    let w ← assign w o .q q
    let w ← assign w o .g g
    some (w, 1)

/-- `DSA_set0_key` (libcrypto-compat.c:180-199) and `DH_set0_key` (libcrypto-compat.c:287-306). -/
def setKey (w : W) (o : Nat) (pub priv : Option Nat) : Option (W × Int) :=
  if missing w o .pub_key pub then some (w, 0)
  else do
    let w ← assign w o .pub_key pub
    let w ← assign w o .priv_key priv
    some (w, 1)

/-- `DSA_SIG_set0` (libcrypto-compat.c:209-218) and `ECDSA_SIG_set0` (libcrypto-compat.c:228-237). -/
def sigSet (w : W) (o : Nat) (r s : Option Nat) : Option (W × Int) :=
  if r.isNone || s.isNone then some (w, 0)
  else do
    let w ← bnFree w (w.slots o .r)
    let w ← bnFree w (w.slots o .s)
    some (store (store w o .r r) o .s s, 1)

/-- `DH_set0_pqg` (libcrypto-compat.c:250-277), with `BN_num_bits` as a parameter. -/
def dhSetPqg (bits : Nat → Int) (w : W) (o : Nat) (p q g : Option Nat) : Option (W × Int) :=
  if missing w o .p p || missing w o .g g then some (w, 0)
  else do
    let w ← assign w o .p p
    let w ← assign w o .q q
    let w ← assign w o .g g
    match q with
    | none => some (w, 1)
    | some q => some ({ w with length := fun o' => if o' = o then bits q else w.length o' }, 1)

/-- `DH_set_length` (libcrypto-compat.c:308-312). -/
def dhSetLength (w : W) (o : Nat) (l : Int) : W × Int := ({ w with length := fun o' => if o' = o then l else w.length o' }, 1)

/-- One field handed out by `RSA_get0_key` (libcrypto-compat.c:103-112), `RSA_get0_factors` (libcrypto-compat.c:114-120),
`RSA_get0_crt_params` (libcrypto-compat.c:122-132), `DSA_get0_pqg` (libcrypto-compat.c:134-143), `DSA_get0_key` (libcrypto-compat.c:171-178),
`DSA_SIG_get0` (libcrypto-compat.c:201-207), `ECDSA_SIG_get0` (libcrypto-compat.c:220-226), `DH_get0_pqg` (libcrypto-compat.c:239-248)
and `DH_get0_key` (libcrypto-compat.c:279-285): the field's value where the caller asked for it. -/
def get (w : W) (o : Nat) (x : Slot) (wanted : Bool) : Option (Option Nat) := if wanted then some (w.slots o x) else none

/-! ## RSA_METHOD and EVP_MD_CTX -/

open PcreJob (H malloc free)

/-- A method of the caller: its block and that of its name. -/
structure Meth where
  self : Nat
  name : Nat

/-- `RSA_meth_dup` (libcrypto-compat.c:335-351): the block, and the name copied. The method copied is not changed. -/
def methDup (h : H) : Option (H × Option Meth) := do
  let (h, p) := malloc h
  match p with
  | none => some (h, none)
  | some p =>
    let (h, q) := malloc h
    match q with
    | none => do
      let h ← free h p
      some (h, none)
    | some q => some (h, some ⟨p, q⟩)

/-- `RSA_meth_set1_name` (libcrypto-compat.c:353-366). -/
def methSetName (h : H) (m : Meth) : Option (H × Meth × Int) := do
  let (h, q) := malloc h
  match q with
  | none => some (h, m, 0)
  | some q => do
    let h ← free h m.name
    some (h, { m with name := q }, 1)

/-- `RSA_meth_free` (libcrypto-compat.c:392-398). -/
def methFree (h : H) (m : Meth) : Option H := do
  let h ← free h m.name
  free h m.self

end CryptoCompat
