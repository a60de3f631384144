import Mathlib.Algebra.Order.Floor.Ring
import Mathlib.Algebra.Order.Round
import Mathlib.Data.Rat.Floor

/-!
# Colours

Model of `mmcore/geom/materials/__init__.py`: construction of `ColorRGB`, its hexadecimal and decimal forms, `from_hex`, the arrays, hash and
equality, and `ColorRGBA`.

Floats are the rationals; `np.round` rounds halves to even.  Not modelled: `random`, `ToJSON`; `int(s, 16)` is modelled for
texts of digits with an optional sign (Python also skips blanks around them).
-/

namespace Verif.Col

/-- An argument of `ColorRGB`: a Python `int`, or a float, or an integer of numpy (which is not an instance of `int`). -/
inductive Num
  | int (n : Int)
  | npInt (n : Int)
  | float (x : Rat)
  deriving DecidableEq

def Num.isInt : Num → Bool
  | .int _ => true
  | _ => false

def Num.val : Num → Rat
  | .int n => n
  | .npInt n => n
  | .float x => x

/-- `np.round`: to the nearest integer, halves to the even one. -/
def npRound (x : Rat) : Int :=
  let f := ⌊x⌋
  if x - f < 1 / 2 then f else if 1 / 2 < x - f then f + 1 else if f % 2 = 0 then f else f + 1

/-- A colour: the tuple and the attributes `r`, `g`, `b`. -/
structure Color where
  items : List Int
  r : Int
  g : Int
  b : Int
  deriving DecidableEq

/-- `ColorRGB.__new__` (materials/__init__.py:29-43); `none` is an exception. -/
def create (args : List Num) : Option Color :=
  if args.all Num.isInt then
    let l := args.map fun a => ⌊a.val⌋
    match l.take 3 with
    | [r, g, b] => some ⟨l, r, g, b⟩
    | _ => none
  else
    let l := args.map fun a => npRound (a.val * 255)
    match l with
    | [r, g, b] => some ⟨l, r, g, b⟩
    | _ => none

/-- `"%02x" % n` (67). -/
def fmt (n : Int) : List Char :=
  let d := Nat.toDigits 16 n.natAbs
  if n < 0 then '-' :: d else if d.length < 2 then '0' :: d else d

/-- `hex` (66-67). -/
def Color.hex (c : Color) : List Char := fmt c.r ++ fmt c.g ++ fmt c.b

/-- `__str__` (57-58). -/
def Color.str (c : Color) : List Char := '#' :: c.hex

def hexVal (c : Char) : Option Nat :=
  if c.isDigit then some (c.toNat - 48)
  else if 'a' ≤ c ∧ c ≤ 'f' then some (c.toNat - 87)
  else if 'A' ≤ c ∧ c ≤ 'F' then some (c.toNat - 55)
  else none

def hexNat (s : List Char) : Option Nat :=
  if s = [] then none else s.foldl (fun a c => a.bind fun a => (hexVal c).map fun d => 16 * a + d) (some 0)

/-- `int(s, 16)`. -/
def hexInt (s : List Char) : Option Int :=
  match s with
  | '-' :: r => (hexNat r).map fun n : Nat => -(n : Int)
  | '+' :: r => (hexNat r).map fun n : Nat => (n : Int)
  | r => (hexNat r).map fun n : Nat => (n : Int)

/-- `decimal` and `__int__` (53-55, 60-61). -/
def Color.decimal (c : Color) : Option Int := hexInt c.hex

/-- `from_hex` (106-109). -/
def fromHex (s : List Char) : Option Color :=
  let h := s.dropWhile (· = '#')
  match hexInt (h.take 2), hexInt ((h.drop 2).take 2), hexInt ((h.drop 4).take 2) with
  | some r, some g, some b => create [.int r, .int g, .int b]
  | _, _, _ => none

/-- `rgb_0to1` (45-47). -/
def Color.unit (c : Color) : List Num := [.float (c.r / 255), .float (c.g / 255), .float (c.b / 255)]

/-- `rgb_0to255` (49-51): integers of numpy. -/
def Color.bytes (c : Color) : List Num := [.npInt c.r, .npInt c.g, .npInt c.b]

/-- `==` is that of tuples. -/
def Color.eq (c d : Color) : Bool := c.items = d.items

/-- `__hash__` (63-64): the hash of the three attributes, as a tuple. -/
def Color.hash {H : Type} (hash : List Int → H) (c : Color) : H := hash [c.r, c.g, c.b]

/-- `ColorRGBA` (112-116). -/
structure ColorA where
  color : Color
  a : Rat
  deriving DecidableEq

def createA (r g b : Num) (a : Rat) : Option ColorA := (create [r, g, b]).map fun c => ⟨c, a⟩

end Verif.Col
