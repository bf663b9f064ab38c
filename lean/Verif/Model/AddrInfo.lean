/-! # Model of libcompat/getaddrinfo.c

The name service of the C library is a parameter; `malloc` and `strdup` may fail at any call. IPv6 is not supported by the code. -/
namespace AddrInfo

abbrev Bytes := List UInt8

/-- A block of memory: a `struct addrinfo` (socket type, protocol, the pointers `ai_addr`, `ai_canonname`, `ai_next`), a `struct sockaddr_in` (port in host order and the four bytes of the address), a string. -/
inductive Block where
  | ai (socktype protocol : Int) (addr : Nat) (canon : Option Nat) (next : Option Nat)
  | sin (port : Nat) (ip : Bytes)
  | str (s : Bytes)
deriving DecidableEq

/-- Memory: the blocks, the calls of `malloc` so far, and which calls succeed. -/
structure Heap where
  blocks : Nat → Option Block
  calls : Nat
  grant : Nat → Bool

/-- `malloc` and the stores that follow it: a new block, named by the number of the call. -/
def Heap.alloc (h : Heap) (b : Block) : Option Nat × Heap :=
  if h.grant h.calls then (some h.calls, { h with blocks := fun i => if i = h.calls then some b else h.blocks i, calls := h.calls + 1 })
  else (none, { h with calls := h.calls + 1 })

/-- `free`; `none`: the block is not allocated. -/
def Heap.free (h : Heap) (p : Nat) : Option Heap :=
  match h.blocks p with
  | none => none
  | some _ => some { h with blocks := fun i => if i = p then none else h.blocks i }

/-- A store into an allocated block. -/
def Heap.store (h : Heap) (p : Nat) (b : Block) : Heap := { h with blocks := fun i => if i = p then some b else h.blocks i }

/-- The loop of `freeaddrinfo` (getaddrinfo.c:324-337). Each iteration frees one block, so the number of `malloc`s so far bounds the iterations unless a block is freed twice. -/
def freeLoop : Nat → Option Nat → Heap → Option Heap
  | 0, _, _ => none
  | _ + 1, none, h => some h
  | n + 1, some p, h => do
    match h.blocks p with
    | some (.ai _ _ addr canon next) =>
      let h ← match canon with | some c => h.free c | none => some h
      let h ← h.free addr
      let h ← h.free p
      freeLoop n next h
    | _ => none

/-- `freeaddrinfo` (getaddrinfo.c:324-337). -/
def freeaddrinfo (p : Option Nat) (h : Heap) : Option Heap := freeLoop (h.calls + 1) p h

/-- The fields of `struct addrinfo` used as hints. -/
structure Hints where
  family : Int
  socktype : Int
  protocol : Int
  canonname : Bool
  numericserv : Bool
  numerichost : Bool
  passive : Bool
deriving DecidableEq

/-- AF_UNSPEC, AF_INET, SOCK_STREAM. -/
def AF_UNSPEC : Int := 0
def AF_INET : Int := 2
def SOCK_STREAM : Int := 1

/-- The codes of netdb.h. -/
inductive Code where
  | ok
  | noname
  | again
  | fail
  | memory
  | family
deriving DecidableEq

/-- `h_errno`. -/
inductive HErr where
  | hostNotFound
  | noData
  | tryAgain
  | noRecovery
deriving DecidableEq

/-- A `struct hostent` (`addrs` is `h_addr_list` up to its null pointer). -/
structure Hostent where
  name : Option Bytes
  addrtype : Int
  addrs : List Bytes

/-- What the name service answers: `gethostbyname`, `gethostbyaddr` (with the four bytes), `gethostname`, `inet_pton(AF_INET)`. -/
structure Net where
  byName : Bytes → Except HErr Hostent
  byAddr : Bytes → Except HErr Hostent
  hostname : Option Bytes
  pton : Bytes → Option Bytes

/-- `check_hostent_err` (getaddrinfo.c:60-81). -/
def checkHostent (hp : Except HErr Hostent) : Code :=
  match hp with
  | .error .hostNotFound => .noname
  | .error .noData => .noname
  | .error .tryAgain => .again
  | .error .noRecovery => .fail
  | .ok e => if e.name = none ∨ e.addrtype ≠ AF_INET then .fail else .ok

/-- `canon_name_from_hostent` (getaddrinfo.c:83-97): the copy of the name, or the error. -/
def canonName (hp : Except HErr Hostent) (h : Heap) : Except Code Nat × Heap :=
  match checkHostent hp, hp with
  | .ok, .ok e =>
    match h.alloc (.str (e.name.getD [])) with
    | (some p, h) => (.ok p, h)
    | (none, h) => (.error .memory, h)
  | .ok, .error _ => (.error .fail, h)
  | c, _ => (.error c, h)

/-- `get_my_canon_name` (getaddrinfo.c:99-110). -/
def myCanonName (net : Net) (h : Heap) : Except Code Nat × Heap :=
  match net.hostname with
  | none => (.error .fail, h)
  | some n => canonName (net.byName (n.take 255)) h

/-- `alloc_entry` (getaddrinfo.c:120-154). -/
def allocEntry (hints : Hints) (ip : Bytes) (port : Nat) (h : Heap) : Option (Option Nat × Heap) :=
  match h.alloc (.ai hints.socktype hints.protocol 0 none none) with
  | (none, h) => some (none, h)
  | (some a, h) =>
    match h.alloc (.sin port ip) with
    | (none, h) => (h.free a).map fun h => (none, h)
    | (some s, h) => some (some a, h.store a (.ai hints.socktype hints.protocol s none none))

/-- `atoi` of the C library on a text without blanks, as a number (out of range is not considered), then the cast to `unsigned short`. -/
def portOf (service : Option Bytes) : Nat :=
  match service with
  | none => 0
  | some s =>
    let dig (t : Bytes) : Int := (t.takeWhile fun c => 48 ≤ c && c ≤ 57).foldl (fun n c => 10 * n + ((c.toNat : Int) - 48)) 0
    let v : Int := match s with | 45 :: t => -dig t | 43 :: t => dig t | t => dig t
    (v % 65536).toNat

/-- `htonl`, as the four bytes in memory. -/
def htonl (n : Nat) : Bytes := [UInt8.ofNat (n / 16777216 % 256), UInt8.ofNat (n / 65536 % 256), UInt8.ofNat (n / 256 % 256), UInt8.ofNat (n % 256)]
/-- `ntohl`. -/
def ntohl (b : Bytes) : Nat := b.foldl (fun n c => 256 * n + c.toNat) 0

/-- `INADDR_ANY`, `INADDR_LOOPBACK`. -/
def INADDR_ANY : Nat := 0
def INADDR_LOOPBACK : Nat := 0x7f000001

/-- What the functions give: the code, `*res` if stored, and memory. -/
abbrev Res := Option (Code × Option (Option Nat) × Heap)

/-- `getaddr_info_single_addr` (getaddrinfo.c:166-201). -/
def single (net : Net) (service : Option Bytes) (addr : Nat) (hints : Hints) (h : Heap) : Res := do
  let (a, h) ← allocEntry hints (htonl addr) (portOf service) h
  match a with
  | none => some (.memory, none, h)
  | some a =>
    if hints.numericserv = false ∧ hints.canonname = true then
      match (if addr = INADDR_LOOPBACK ∨ addr = INADDR_ANY then myCanonName net h else canonName (net.byAddr (htonl addr)) h) with
      | (.ok c, h) =>
        match h.blocks a with
        | some (.ai st pr s _ nx) => some (.ok, some (some a), h.store a (.ai st pr s (some c) nx))
        | _ => none
      | (.error e, h) => (freeaddrinfo (some a) h).map fun h => (e, none, h)
    else some (.ok, some (some a), h)

/-- The loop of `getaddr_info_name` (getaddrinfo.c:232-252): the first entry and the last one. -/
def nameLoop (hints : Hints) (port : Nat) (name : Bytes) : List Bytes → Option Nat → Option Nat → Heap → Res
  | [], listp, _, h => some (.ok, some listp, h)
  | ip :: ips, listp, prevp, h => do
    let (a, h) ← allocEntry hints ip port h
    match a with
    | none => (freeaddrinfo listp h).map fun h => (.memory, none, h)
    | some a =>
      match listp with
      | none =>
        match h.alloc (.str name) with
        | (none, h) => (freeaddrinfo (some a) h).map fun h => (.memory, none, h)
        | (some c, h) =>
          match h.blocks a with
          | some (.ai st pr s _ nx) => nameLoop hints port name ips (some a) (some a) (h.store a (.ai st pr s (some c) nx))
          | _ => none
      | some l =>
        match prevp with
        | none => none
        | some q =>
          match h.blocks q with
          | some (.ai st pr s c _) => nameLoop hints port name ips (some l) (some a) (h.store q (.ai st pr s c (some a)))
          | _ => none

/-- `getaddr_info_name` (getaddrinfo.c:209-254). -/
def byName (net : Net) (node : Bytes) (service : Option Bytes) (hints : Hints) (h : Heap) : Res :=
  match checkHostent (net.byName node), net.byName node with
  | .ok, .ok e => nameLoop hints (portOf service) (e.name.getD []) e.addrs none none h
  | .ok, .error _ => none
  | c, _ => some (c, none, h)

/-- `getaddrinfo` (getaddrinfo.c:262-320). -/
def getaddrinfo (net : Net) (node service : Option Bytes) (hintp : Option Hints) (h : Heap) : Res :=
  let hints := hintp.getD ⟨AF_INET, SOCK_STREAM, 0, false, false, false, false⟩
  if hints.family ≠ AF_INET ∧ hints.family ≠ AF_UNSPEC then some (.family, none, h)
  else
    let hints := if hints.socktype = 0 then { hints with socktype := SOCK_STREAM } else hints
    match node with
    | none =>
      if service = none then some (.noname, none, h)
      else if hints.passive then single net service INADDR_ANY hints h
      else single net service INADDR_LOOPBACK hints h
    | some node =>
      if node = [] then single net service INADDR_ANY hints h
      else if hints.numerichost then
        match net.pton node with
        | none => some (.fail, none, h)
        | some ip => single net service (ntohl ip) hints h
      else byName net node service hints h

/-! ## getnameinfo -/

/-- Flags of `getnameinfo`. -/
structure NFlags where
  numerichost : Bool
  numericserv : Bool
  namereqd : Bool
  nofqdn : Bool
  dgram : Bool

/-- `snprintf(buf, len, "%s", s)` and the test of its result: the text, or EAI_MEMORY. -/
def fits (s : Bytes) (len : Nat) : Option Bytes := if s.length ≥ len then none else some s

/-- `gethostnameinfo` (getaddrinfo.c:402-440); `ntoa` is `inet_ntoa`. -/
def hostName (net : Net) (ntoa : Bytes → Bytes) (ip : Bytes) (len : Nat) (f : NFlags) : Except Code Bytes :=
  let numeric : Except Code Bytes := match fits (ntoa ip) len with | some t => .ok t | none => .error .memory
  if f.numerichost = false then
    match checkHostent (net.byAddr ip), net.byAddr ip with
    | .ok, .ok e =>
      match fits (e.name.getD []) len with
      | none => .error .memory
      | some t => .ok (if f.nofqdn then t.takeWhile (· != 46) else t)
    | c, _ => if f.namereqd then .error c else numeric
  else numeric

/-- `getservicenameinfo` (getaddrinfo.c:446-469): `serv` is `getservbyport`, whose argument the code gives in host order; `dec` prints a number. -/
def serviceName (serv : Nat → Bool → Option Bytes) (dec : Nat → Bytes) (port len : Nat) (f : NFlags) : Except Code Bytes :=
  let numeric : Except Code Bytes := match fits (dec port) len with | some t => .ok t | none => .error .memory
  if f.numericserv = false then
    match serv port f.dgram with
    | some n => match fits n len with | some t => .ok t | none => .error .memory
    | none => numeric
  else numeric

/-- `getnameinfo` (getaddrinfo.c:479-504) for an AF_INET address: the code and the two texts stored. -/
def getnameinfo (net : Net) (ntoa : Bytes → Bytes) (serv : Nat → Bool → Option Bytes) (dec : Nat → Bytes) (ip : Bytes) (port : Nat) (node service : Option Nat) (f : NFlags) : Code × Option Bytes × Option Bytes :=
  if node = none ∧ service = none then (.fail, none, none)
  else
    match (match node with | none => Except.ok none | some len => (hostName net ntoa ip len f).map some : Except Code (Option Bytes)) with
    | .error c => (c, none, none)
    | .ok t =>
      match service with
      | none => (.ok, t, none)
      | some len =>
        match serviceName serv dec port len f with
        | .ok s => (.ok, t, some s)
        | .error c => (c, t, none)

end AddrInfo
