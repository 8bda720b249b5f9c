import Verif.Model.RuleParsing
import Verif.Model.Vector

/-!
# Cutting strings in place (src/util/string_util.c)

`str_split` and `strip` write NUL characters into their argument.  The block the argument
lives in is a list of characters that may contain NULs; pointers into it are offsets.
-/

namespace Verif

/-- The C string at an offset. -/
def cstrAt (mem : Str) (off : Nat) : Str := cstr (mem.drop off)

/-- `str_split`, src/util/string_util.c:60-85: the block afterwards and the offsets stored in
`out_strs`. -/
def strSplit (mem : Str) (off : Nat) : List Str → Str × List Nat
  | [] => (mem, [off])
  | d :: ds =>
    match strstr (cstrAt mem off) d with
    | some k =>
      let (m, os) := strSplit (mem.set (off + k) nul) (off + k + d.length) ds
      (m, off :: os)
    | none => (mem, [off])

/-- The second loop of `strip`, string_util.c:153-157; `k` is one more than the offset of `*str`.
The loop has no lower limit: below the block it is undefined. -/
def stripEnd (mem : Str) : Nat → Res Str
  | 0 => .ub
  | k + 1 => if mem[k]? = some ' ' then stripEnd (mem.set k nul) k else .ok mem

/-- `strip`, string_util.c:144-158: the block afterwards and the offset of the result. -/
def strip (mem : Str) (off : Nat) : Res (Str × Nat) :=
  let s := cstrAt mem off
  if s.length = 0 then .ok (mem, off)
  else do
    let m ← stripEnd mem (off + s.length)
    pure (m, off + (s.takeWhile (· == ' ')).length)

/-- A loop that strips strings one after the other, as in cmd_table_exec,
src/client/commands/cmd_table.c:49-52. -/
def stripAll (mem : Str) : List Nat → Res (Str × List Nat)
  | [] => .ok (mem, [])
  | o :: os => do
    let (m, o') ← strip mem o
    let (m', os') ← stripAll m os
    pure (m', o' :: os')

/-- What `get_line_of_string` tells its caller: NULL, nothing (`*out_start` is not
written), or the rest of the string from the line on and the length of the line. -/
inductive LineAnswer where
  | null
  | unset
  | line (start : Str) (len : Nat)
deriving DecidableEq, Repr

/-- The loop of `get_line_of_string`, string_util.c:99-111: the rest of the string and
`line_index` when the loop ends. -/
def findLine : Str → Nat → Str × Nat
  | [], k => ([], k)
  | _ :: s, k =>
    if s.head? = some '\n' then
      if k - 1 = 0 then (s.drop 1, 0) else findLine s (k - 1)
    else findLine s k

/-- `get_line_of_string`, string_util.c:88-129 -/
def getLineOfString (string : Option Str) (index : Nat) : LineAnswer :=
  match string with
  | none => .null
  | some s =>
    let (rest, k) := if index > 0 then findLine s index else (s, index)
    if k ≠ 0 then .unset else .line rest (rest.takeWhile (· != '\n')).length

end Verif
