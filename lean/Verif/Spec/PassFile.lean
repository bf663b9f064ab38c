/-! # Passing open files: what the two ends of the channel must see

The channel carries, in order, open files each with an optional text. -/
namespace PassFileSpec

/-- A text is a C string: bytes other than 0. -/
abbrev Text := List UInt8

/-- What can be done to the channel. -/
inductive Op where
  | put (file : Nat) (text : Option Text) (sent : Bool)  -- `sent`: the operating system accepted the message
  | get (free : Bool)                                    -- `free`: the receiver may open one more descriptor
  | close                                                -- the sender closes its end

/-- What comes of it. `got file text`: a new descriptor for that open file, and the text (`none` = NULL). -/
inductive Out where
  | put (ok : Bool)
  | got (file : Nat) (text : Option Text)
  | failed
  | waits
  | closed
deriving DecidableEq

/-- The channel: what was put and not yet got, oldest first, and whether the sender closed its end. -/
structure Chan where
  items : List (Nat × Option Text)
  closed : Bool

/-- A first-in first-out channel. -/
def step (c : Chan) : Op → Chan × Out
  | .put f t sent =>
    if c.closed then (c, .put false)
    else if sent then (⟨c.items ++ [(f, t)], c.closed⟩, .put true) else (c, .put false)
  | .get free =>
    match c.items with
    | [] => if c.closed then (c, .failed) else (c, .waits)
    | (f, t) :: rest => (⟨rest, c.closed⟩, if free then .got f t else .failed)
  | .close => (⟨c.items, true⟩, .closed)

/-- A whole history, with what comes of every operation. -/
def run (c : Chan) : List Op → List Out
  | [] => []
  | o :: os => (step c o).2 :: run (step c o).1 os

/-- The texts that may be passed: C strings of at most 1023 bytes, or NULL. -/
def Fits : Op → Prop
  | .put _ (some t) _ => 0 ∉ t ∧ t.length ≤ 1023
  | _ => True

end PassFileSpec
