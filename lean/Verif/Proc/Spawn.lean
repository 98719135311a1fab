import Verif.Proc.Wait
import Verif.Mem

/-!
# A spawned process and its task (`spawning`, `spawn_io` in `src/async_io.c`), C85-C86

One spawned process whose output is handled by a callback; the rest of the program is the schedule.  The pipe for the output
holds at most `cap` bytes and is non-blocking at both ends (src/async_io.c:880-881).  What the child writes beyond that is
refused by the kernel; `out` are the bytes it accepted.
-/

namespace Verif.Proc.Spawn

open Verif (Bytes)
open Verif.Proc (End exitCode)

/-- Where the task `spawning` is: it yields before every turn of its loop, or has ended (normally or after a failed launch). -/
inductive Task where
  | waiting
  | ended
  | failed
  deriving DecidableEq, Repr

/-- `life`: `none` if `vfork` failed, so that there is no child. -/
structure St where
  life : Option Life
  out : Bytes
  pipe : Bytes
  /-- The calls of the output callback, with the bytes handed over. -/
  calls : List Bytes
  /-- The write end is registered with the loop and the pipe is open. -/
  opn : Bool
  task : Task
  /-- The calls of the exit callback: `exit_status` and `term_signal`. -/
  exits : List (Int × Int)

/-- What the rest of the system may do.  `writable`: a poll finds the write end of the pipe ready; the kernel may report so
only if the pipe is not full.  `turn`: the task is resumed. -/
inductive Ev where
  | childWrites (bs : Bytes)
  | childEnds (e : End)
  | poll (writable : Bool)
  | turn
  deriving DecidableEq

/-- The start of `spawning` up to its first `yield`, src/async_io.c:768-785.  `forked`: `vfork` succeeded; `reg`: the write
end could be registered (`events_add` returned 0).  If it could not, the task ends. -/
def launch (forked reg : Bool) : St :=
  ⟨if forked then some .running else none, [], [], [], reg, if reg then .waiting else .failed, []⟩

/-- `Kb(32)`, the size of the buffer, src/async_io.c:748. -/
def bufSize : Nat := 32768

/-- `spawn_io`, src/async_io.c:744-755: reads up to `bufSize` bytes from the pipe; nothing is done if there are none. -/
def spawnIo (s : St) : St :=
  let data := s.pipe.take bufSize
  if data = [] then s else { s with pipe := s.pipe.drop bufSize, calls := s.calls ++ [data] }

/-- The end of `spawning`, src/async_io.c:792-812: the write end is deregistered and the pipe closed, with what it holds; the
exit callback gets `status` twice. -/
def finish (status : Int) (s : St) : St :=
  { s with opn := false, pipe := [], task := .ended, exits := s.exits ++ [(status, status)] }

/-- A turn of the loop, src/async_io.c:787-790: `exec_wait(pid, 0, &status)` says "timed out" while the child runs; `status` is
still 0 if it fails with another error. -/
def turn (s : St) : St :=
  match s.task with
  | .waiting =>
    match s.life with
    | some .running => s
    | some (.ended e) => { finish (exitCode e) s with life := some .unknown }
    | some .unknown => finish 0 s
    | none => finish 0 s
  | _ => s

def step (cap : Nat) (s : St) : Ev → St
  | .childWrites bs =>
    if s.life = some .running then
      let a := bs.take (cap - s.pipe.length)
      { s with out := s.out ++ a, pipe := s.pipe ++ a }
    else s
  | .childEnds e => if s.life = some .running then { s with life := some (.ended e) } else s
  | .poll w => if s.opn && w && decide (s.pipe.length < cap) then spawnIo s else s
  | .turn => turn s

def run (cap : Nat) (s : St) (es : List Ev) : St := es.foldl (step cap) s

end Verif.Proc.Spawn
