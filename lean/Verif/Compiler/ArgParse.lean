/-!
# Compile options: `ArgParser`, src/compiler/argparse.cpp, include/compiler/argparse.h; `Split`, src/utils/box.cpp:134-155

Strings are lists of characters. `std::map`s are association lists, a later entry shadowing an older one. The regular
expressions are written out; case folding is ASCII (`Char.toLower`).
-/
namespace Verif.Compiler

abbrev Str := List Char

namespace Arg

/-- separators given to `Split` by `parse`, argparse.cpp:85 -/
def isSep (c : Char) : Bool := c = ' ' || c = '\t' || c = '\r' || c = '\n'

/-- `Split`, box.cpp:143-155 with `FindDecollator`, 134-141: cut at every separator; `cur` is the part since `left` -/
def splitLoop (cur : Str) : Str → List Str
  | [] => [cur]
  | c :: s => if isSep c then cur :: splitLoop [] s else splitLoop (cur ++ [c]) s
def split (s : Str) : List Str := splitLoop [] s

/-- `\s` -/
def isSpace (c : Char) : Bool := c = ' ' || c = '\t' || c = '\r' || c = '\n' || c = '\x0b' || c = '\x0c'

/-- drop a class of characters at both ends -/
def trim (p : Char → Bool) (s : Str) : Str := ((s.dropWhile p).reverse.dropWhile p).reverse

/-- `stand1`, argparse.cpp:14-25: `^\s*(\S*)\s*$`, lower case -/
def stand1 (s : Str) : Str :=
  let t := trim isSpace s
  (if t.any isSpace then s else t).map Char.toLower

/-- `[_-]` -/
def isDash (c : Char) : Bool := c = '_' || c = '-'

/-- `stand2`, argparse.cpp:27-35: `^[_-]*([^_-]*)[_-]*$` -/
def stand2 (s : Str) : Str :=
  let t := trim isDash s
  if t.any isDash then s else t

/-- match of `^-[vV]:([^:]*):([^:]*)$`, argparse.cpp:83, 90 -/
def deviceMap? : Str → Option (Str × Str)
  | d :: v :: c :: rest =>
    if d = '-' ∧ (v = 'v' ∨ v = 'V') ∧ c = ':' then
      let a := rest.takeWhile (· != ':')
      match rest.dropWhile (· != ':') with
      | _ :: b => if b.any (· == ':') then none else some (a, b)
      | [] => none
    else none
  | _ => none

/-- the members, argparse.h:31-35 -/
structure Parser where
  trueNames : List (Str × Str)
  falseNames : List (Str × Str)
  values : List (Str × Bool)
  devices : List (Str × Str)

/-- `find` -/
def look {β : Type} (m : List (Str × β)) (k : Str) : Option β := m.lookup k

/-- `insert`: nothing happens if the key is present -/
def insertNew {β : Type} (m : List (Str × β)) (k : Str) (v : β) : List (Str × β) :=
  if (look m k).isSome then m else (k, v) :: m
/-- `m[k] = v` -/
def assign {β : Type} (m : List (Str × β)) (k : Str) (v : β) : List (Str × β) := (k, v) :: m

/-- `ArgParser()`, argparse.cpp:37-40 -/
def Parser.new : Parser := ⟨[], [], [], [("cuda".toList, "gpu".toList), ([], "cpu".toList)]⟩

/-- `add`, argparse.cpp:42-60; `main` is `arg.front()` and `more` the rest of `arg` (an empty `arg` raises) -/
def Parser.add (p : Parser) (main : Str) (more neg : List Str) (dflt : Bool) : Parser :=
  { p with
    trueNames := (main :: more).foldl (fun m k => insertNew m k main) p.trueNames
    falseNames := neg.foldl (fun m k => insertNew m k main) p.falseNames
    values := if dflt then insertNew p.values main true else p.values }

/-- `set`, argparse.cpp:62-75 -/
def Parser.set (p : Parser) (a : Str) : Parser :=
  match look p.trueNames a with
  | some n => { p with values := assign p.values n true }
  | none =>
    match look p.falseNames a with
    | some n => { p with values := assign p.values n false }
    | none => p

/-- `get`, argparse.cpp:77-83 -/
def Parser.get (p : Parser) (a : Str) : Bool := (look p.values a).getD false

/-- body of the loop of `parse`, argparse.cpp:88-98 -/
def Parser.param (p : Parser) (a : Str) : Parser :=
  if a = [] then p
  else
    match deviceMap? a with
    | some (x, y) => { p with devices := assign p.devices (stand1 x) (stand1 y) }
    | none => p.set a

/-- `parse`, argparse.cpp:82-99 -/
def Parser.parse (p : Parser) (s : Str) : Parser := (split s).foldl Parser.param p

/-- `map_device`, argparse.cpp:101-112: the loop, `none` when it has not ended after `fuel` rounds -/
def Parser.mapLoop (p : Parser) : Nat → Str → Option Str
  | 0, _ => none
  | fuel + 1, d =>
    match look p.devices d with
    | some e => p.mapLoop fuel e
    | none => some (stand2 d)

/-- `map_device` ends with `r` -/
def Parser.MapDevice (p : Parser) (device r : Str) : Prop := ∃ fuel, p.mapLoop fuel (stand1 device) = some r

end Arg
end Verif.Compiler
