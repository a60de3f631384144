/-!
# Model of mmcore/compat/step/step_writer.py: the parser of instance lines

Strings are lists of characters.  `ws` says which characters `str.strip` and `\s` take for white
space, `conv` is the conversion of an unquoted token to an integer, a number or a string.
-/

namespace Verif.Step.Parse

/-- Values of parsed arguments. -/
inductive Val (α : Type)
  | str (s : List Char)
  | atom (a : α)
  | tup (l : List (Val α))

/-- What the parser can end with instead of a value; `fuel` does not happen. -/
inductive Err
  | unbalanced
  | format
  | fuel
deriving DecidableEq

variable {α : Type}

/-- `str.strip()`. -/
def strip (ws : Char → Bool) (s : List Char) : List Char :=
  ((s.dropWhile ws).reverse.dropWhile ws).reverse

/-- `process_token` (step_writer.py:113-140). -/
def processTok (conv : List Char → α) (t : List Char) : Val α :=
  if (t.head? = some '\'' ∧ t.getLast? = some '\'') ∨ (t.head? = some '"' ∧ t.getLast? = some '"')
  then .str (t.drop 1).dropLast
  else .atom (conv t)

/-- The search for the matching parenthesis (step_writer.py:81-93) with `n` open: what is before it
and what is after it. -/
def close : Nat → List Char → Option (List Char × List Char)
  | _, [] => none
  | n, c :: s =>
    if c = '(' then (close (n + 1) s).map (fun r => (c :: r.1, r.2))
    else if c = ')' then
      if n = 1 then some ([], s) else (close (n - 1) s).map (fun r => (c :: r.1, r.2))
    else (close n s).map (fun r => (c :: r.1, r.2))

/-- A token that ends: the list of arguments with it, unless it is blank
(step_writer.py:98-99, 107-108). -/
def flush (ws : Char → Bool) (conv : List Char → α) (cur : List Char) (args : List (Val α)) :
    List (Val α) :=
  if strip ws cur = [] then args else args ++ [processTok conv (strip ws cur)]

/-- `parse_arguments` (step_writer.py:44-110), the loop. -/
def loop (ws : Char → Bool) (conv : List Char → α) : Nat → List Char → List Char → Option Char →
    List (Val α) → Except Err (List (Val α))
  | 0, _, _, _, _ => .error .fuel
  | _ + 1, [], cur, _, args => .ok (flush ws conv cur args)
  | f + 1, c :: s, cur, some q, args =>
    loop ws conv f s (cur ++ [c]) (if c = q then none else some q) args
  | f + 1, c :: s, cur, none, args =>
    if c = '\'' ∨ c = '"' then loop ws conv f s (cur ++ [c]) (some c) args
    else if c = '(' then
      match close 1 s with
      | none => .error .unbalanced
      | some (inner, rest) =>
        match loop ws conv f inner [] none [] with
        | .error e => .error e
        | .ok v => loop ws conv f rest cur none (args ++ [.tup v])
    else if c = ',' then
      loop ws conv f s (if strip ws cur = [] then cur else []) none (flush ws conv cur args)
    else loop ws conv f s (cur ++ [c]) none args

/-- `parse_arguments` (step_writer.py:44-110). -/
def parseArgs (ws : Char → Bool) (conv : List Char → α) (s : List Char) :
    Except Err (List (Val α)) :=
  loop ws conv (s.length + 1) s [] none []

/-- `.rstrip(';')`. -/
def rstripSemi (s : List Char) : List Char := (s.reverse.dropWhile (· == ';')).reverse

/-- `[A-Z_]`. -/
def isName (c : Char) : Bool := c.isUpper || c == '_'

/-- `(.*)\)` at the start of a string: as much of the first line as possible. -/
def toLastClose (s : List Char) : Option (List Char) :=
  match (s.takeWhile (· != '\n')).reverse.dropWhile (· != ')') with
  | [] => none
  | _ :: r => some r.reverse

/-- One given character of a regular expression: what follows it. -/
def expect (c : Char) : List Char → Option (List Char)
  | [] => none
  | x :: r => if x = c then some r else none

/-- The regular expression `#\d+\s*=\s*([A-Z_]+)\s*\((.*)\)` (step_writer.py:32): the two groups. -/
def matchAssign (ws : Char → Bool) (s : List Char) : Option (List Char × List Char) :=
  (expect '#' s).bind fun s1 =>
    if s1.takeWhile Char.isDigit = [] then none
    else (expect '=' ((s1.dropWhile Char.isDigit).dropWhile ws)).bind fun s3 =>
      if (s3.dropWhile ws).takeWhile isName = [] then none
      else (expect '(' (((s3.dropWhile ws).dropWhile isName).dropWhile ws)).bind fun s6 =>
        (toLastClose s6).map (fun a => ((s3.dropWhile ws).takeWhile isName, a))

/-- `parse_assignment` (step_writer.py:18-41). -/
def parseAssignment (ws : Char → Bool) (conv : List Char → α) (s : List Char) :
    Except Err (List Char × List (Val α)) :=
  match matchAssign ws (rstripSemi (strip ws s)) with
  | none => .error .format
  | some (name, args) =>
    match parseArgs ws conv args with
    | .error e => .error e
    | .ok v => .ok (name, v)

end Verif.Step.Parse
