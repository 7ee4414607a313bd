/-
Model of the temporary fixed copies of source files and of the `ExitStack` which removes them
(auto_annotate_utils.py, auto_annotate_figure.py, auto_annotate_fulltext.py).
-/
import Verif.Model.Pipeline

namespace Verif

/-- State of the context `get_fixed_source_url(source_url)`: created, entered (the temporary copy
exists), left (the copy was removed), or left without having been entered; the latter starts the
generator, raises `RuntimeError` and makes entering it fail as well. -/
inductive CtxState
  | fresh
  | entered
  | left
  | broken
  deriving DecidableEq

/-- `__exit__` of a context. -/
def CtxState.exit : CtxState → CtxState
  | .fresh => .broken
  | .entered => .left
  | .left => .left
  | .broken => .broken

/-- Where a worker is in `auto_annotate` (auto_annotate_utils.py:648-650). -/
inductive TempPhase
  | waiting
  | pushed
  | processing
  | leaving (ok : Bool)
  | done (ok : Bool)
  deriving DecidableEq

/-- Whether a worker is busy with the job. -/
def TempPhase.running : TempPhase → Bool
  | .waiting => false
  | .pushed => true
  | .processing => true
  | .leaving _ => true
  | .done _ => false

/-- State of all jobs: their phases, their contexts, and the callbacks of each exit stack (last
one first).  Job `i` uses the stack `stackOf i`. -/
structure TempConfig where
  phases : List TempPhase
  ctx : Nat → CtxState
  stacks : Nat → List Nat

/-- Change the value of a function. -/
def setAt {α : Type} (f : Nat → α) (i : Nat) (a : α) : Nat → α := fun j => if j = i then a else f j

/-- One step of one of at most `workers` workers.  With threads all jobs have the same stack
(`file_exit_stack`, auto_annotate_utils.py:602), with processes every job is given its own copy
(pickled with the bound method, auto_annotate_utils.py:751-754).
Simplification: testing whether the stack is empty and taking the last callback is one step. -/
inductive TempStep (workers : Nat) (stackOf : Nat → Nat) : TempConfig → TempConfig → Prop
  /-- `self.file_exit_stack.push(context)` (auto_annotate_figure.py:136-137, auto_annotate_fulltext.py:217-218) -/
  | push {c : TempConfig} {i : Nat} : c.phases[i]? = some .waiting → (c.phases.filter (fun p => p.running)).length < workers →
      TempStep workers stackOf c
        ⟨c.phases.set i .pushed, c.ctx, setAt c.stacks (stackOf i) (i :: c.stacks (stackOf i))⟩
  /-- `context.__enter__()` (auto_annotate_figure.py:138, auto_annotate_fulltext.py:219) -/
  | enter {c : TempConfig} {i : Nat} : c.phases[i]? = some .pushed → c.ctx i = .fresh →
      TempStep workers stackOf c ⟨c.phases.set i .processing, setAt c.ctx i .entered, c.stacks⟩
  | enterFails {c : TempConfig} {i : Nat} : c.phases[i]? = some .pushed → c.ctx i ≠ .fresh →
      TempStep workers stackOf c ⟨c.phases.set i (.leaving false), c.ctx, c.stacks⟩
  /-- the copy cannot be created: an exception in the generator ends it -/
  | enterRaises {c : TempConfig} {i : Nat} : c.phases[i]? = some .pushed → c.ctx i = .fresh →
      TempStep workers stackOf c ⟨c.phases.set i (.leaving false), setAt c.ctx i .left, c.stacks⟩
  /-- the copy is read while the document is processed (auto_annotate_utils.py:656-676) -/
  | read {c : TempConfig} {i : Nat} : c.phases[i]? = some .processing → c.ctx i = .entered → TempStep workers stackOf c c
  | readFails {c : TempConfig} {i : Nat} : c.phases[i]? = some .processing → c.ctx i ≠ .entered →
      TempStep workers stackOf c ⟨c.phases.set i (.leaving false), c.ctx, c.stacks⟩
  /-- the document was saved -/
  | finish {c : TempConfig} {i : Nat} : c.phases[i]? = some .processing →
      TempStep workers stackOf c ⟨c.phases.set i (.leaving true), c.ctx, c.stacks⟩
  /-- an exception for another reason -/
  | fails {c : TempConfig} {i : Nat} : c.phases[i]? = some .processing →
      TempStep workers stackOf c ⟨c.phases.set i (.leaving false), c.ctx, c.stacks⟩
  /-- one round of the loop of `ExitStack.__exit__` -/
  | pop {c : TempConfig} {i k : Nat} {ok : Bool} {rest : List Nat} : c.phases[i]? = some (.leaving ok) →
      c.stacks (stackOf i) = k :: rest →
      TempStep workers stackOf c ⟨c.phases, setAt c.ctx k (c.ctx k).exit, setAt c.stacks (stackOf i) rest⟩
  /-- end of `ExitStack.__exit__` -/
  | exit {c : TempConfig} {i : Nat} {ok : Bool} : c.phases[i]? = some (.leaving ok) → c.stacks (stackOf i) = [] →
      TempStep workers stackOf c ⟨c.phases.set i (.done ok), c.ctx, c.stacks⟩

/-- What can be reached when `n` jobs are submitted. -/
inductive TempReach (workers : Nat) (stackOf : Nat → Nat) (n : Nat) : TempConfig → Prop
  | start : TempReach workers stackOf n ⟨List.replicate n .waiting, fun _ => .fresh, fun _ => []⟩
  | step {c c' : TempConfig} : TempReach workers stackOf n c → TempStep workers stackOf c c' → TempReach workers stackOf n c'

/-- All jobs share one stack: worker threads (auto_annotate_utils.py:744-747). -/
def sharedStack : Nat → Nat := fun _ => 0

/-- Every job has its own stack: worker processes. -/
def ownStack : Nat → Nat := fun i => i

end Verif
