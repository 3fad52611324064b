import Verif.CallOrder
/-!
# C60, specification: recording a parse and replaying it with another builder

The recorder builds nothing: its values are numbers, the value of a call is the number of calls before it, and its
state is the list of the calls it got. Replaying such a record with a builder `B` makes the recorded calls one after
the other, with every number replaced by what `B` returned for the call of that number.
-/
namespace Conch.Spec
open Conch

/-- Numbers for everything a builder makes. -/
@[reducible] def handles : BTypes :=
  { Command := Nat, CommandList := Nat, ListableCommand := Nat, PipeableCommand := Nat, CompoundCommand := Nat
    Word := Nat, Redirect := Nat, Error := Unit }

/-- The number `n` as the value of a call. -/
def handle (n : Nat) : (c : Call handles) → c.Ret
  | .completeCommand .. | .andOrList .. | .pipeline .. | .simpleCommand .. | .braceGroup .. | .subshell ..
  | .loopCommand .. | .ifCommand .. | .forCommand .. | .caseCommand .. | .compoundCommandIntoPipeable ..
  | .functionDeclaration .. | .word .. | .redirect .. => n
  | .comments .. => ()

/-- The builder that records its calls and gives each the next number. -/
@[reducible] def recorder : Builder where
  toBTypes := handles
  State := List (Call handles)
  call c calls := (.ok (handle calls.length c), calls ++ [c])

/-- A value, or none. -/
@[reducible] def optional (T : BTypes) : BTypes :=
  { Command := Option T.Command, CommandList := Option T.CommandList, ListableCommand := Option T.ListableCommand
    PipeableCommand := Option T.PipeableCommand, CompoundCommand := Option T.CompoundCommand
    Word := Option T.Word, Redirect := Option T.Redirect, Error := Unit }

section
variable {T : BTypes}

/-- The value, if it is a command. -/
def Val.command? : Val T → Option T.Command
  | .command x => some x
  | _ => none
/-- The value, if it is a list of commands. -/
def Val.commandList? : Val T → Option T.CommandList
  | .commandList x => some x
  | _ => none
/-- The value, if it is a command of a list. -/
def Val.listable? : Val T → Option T.ListableCommand
  | .listable x => some x
  | _ => none
/-- The value, if it is a command of a pipeline. -/
def Val.pipeable? : Val T → Option T.PipeableCommand
  | .pipeable x => some x
  | _ => none
/-- The value, if it is a compound command. -/
def Val.compound? : Val T → Option T.CompoundCommand
  | .compound x => some x
  | _ => none
/-- The value, if it is a word. -/
def Val.word? : Val T → Option T.Word
  | .word x => some x
  | _ => none
/-- The value, if it is a redirection. -/
def Val.redirect? : Val T → Option T.Redirect
  | .redirect x => some x
  | _ => none

end

section
variable {B : Builder}

/-- What the `n`-th call returned. -/
def valueOf (es : List (Event B)) (n : Nat) : Option (Val B.toBTypes) :=
  match es[n]? with
  | some ⟨c, .ok a⟩ => (result c a).head?
  | _ => none

/-- Replaces numbers by what the calls of these numbers returned. -/
def values (es : List (Event B)) : BMap handles (optional B.toBTypes) where
  command n := (valueOf es n).bind Val.command?
  commandList n := (valueOf es n).bind Val.commandList?
  listable n := (valueOf es n).bind Val.listable?
  pipeable n := (valueOf es n).bind Val.pipeable?
  compound n := (valueOf es n).bind Val.compound?
  word n := (valueOf es n).bind Val.word?
  redirect n := (valueOf es n).bind Val.redirect?
  error := id

/-- Every value is there. -/
def present (T : BTypes) : BMap T (optional T) :=
  { command := some, commandList := some, listable := some, pipeable := some, compound := some, word := some
    redirect := some, error := fun _ => () }

/-- `Replay es b calls es' b'`: after the calls `es`, in state `b`, the builder `B` makes the recorded calls `calls`, all
of them successful; then `es'` are the calls made and `b'` is the state. -/
inductive Replay : List (Event B) → B.State → List (Call handles) → List (Event B) → B.State → Prop
  | done {es b} : Replay es b [] es b
  | call {es b calls es' b' b1} (r : Call handles) (c : Call B.toBTypes) (a : c.Ret) :
      r.map (values es) = c.map (present B.toBTypes) → B.call c b = (.ok a, b1) →
      Replay (es ++ [⟨c, .ok a⟩]) b1 calls es' b' → Replay es b (r :: calls) es' b'

end
end Conch.Spec
