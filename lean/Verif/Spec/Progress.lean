import Verif.Spec.Alloc

/- Time in the arena allocator is counted in steps of the interleaving semantics. -/

namespace ShogiCore

variable [Profile]

/-- Call number `i` takes one step. -/
def AllocState.StepBy (s : AllocState) (i : Nat) (t : AllocState) : Prop :=
  ∃ (h : i < s.calls.length) (rem : Usize) (pc : AllocPc),
    AllocStep s.calls[i].layout (s.remaining, s.calls[i].pc) (rem, pc) ∧
    t = ⟨rem, s.calls.set i ⟨s.calls[i].layout, pc⟩⟩

/-- That step is a failure of the weak compare-exchange although the counter holds the expected
value, as some processors allow. -/
def AllocState.Spurious (s : AllocState) (i : Nat) (t : AllocState) : Prop :=
  ∃ l mask next, s.calls[i]? = some ⟨l, .cas mask s.remaining next⟩ ∧
    t.calls[i]? = some ⟨l, .loaded mask s.remaining⟩

/-- From `s` to `t`, call number `i` takes `n` steps while other calls take any number of steps
and any number of new calls begin.  If `weak` is false, call number `i` has no spurious
failure. -/
inductive StepsOf (weak : Bool) (i : Nat) : Nat → AllocState → AllocState → Prop
  | refl (s) : StepsOf weak i 0 s s
  | own {n s t u} : StepsOf weak i n s t → t.StepBy i u → (weak = false → ¬ t.Spurious i u) →
      StepsOf weak i (n + 1) s u
  | other {n s t u j} : StepsOf weak i n s t → j ≠ i → t.StepBy j u → StepsOf weak i n s u
  | call {n s t} (l : Layout) : StepsOf weak i n s t →
      StepsOf weak i n s { t with calls := t.calls ++ [⟨l, .start⟩] }

/-- `n` steps of calls that have begun, under any schedule, none of them a spurious failure. -/
inductive ClosedRun : Nat → AllocState → AllocState → Prop
  | refl (s) : ClosedRun 0 s s
  | step {n s t u i} : ClosedRun n s t → t.StepBy i u → ¬ t.Spurious i u → ClosedRun (n + 1) s u

/-- The call has returned or panicked. -/
def AllocThread.finished (c : AllocThread) : Bool :=
  match c.pc with
  | .done _ => true
  | .panicked => true
  | _ => false

/-- How many calls have not finished. -/
def AllocState.pending (s : AllocState) : Nat := (s.calls.filter fun c => !c.finished).length

end ShogiCore
