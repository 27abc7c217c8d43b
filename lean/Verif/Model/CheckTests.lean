import Verif.Spec.CheckTests
import Verif.Model.CiScript

/-!
# `testCppCheck` and `testClangTidy`: what their command does

The command of the tests, cmake/Macros.cmake 56 and 63, is
`make … 2> >(tee file) >/dev/null && exit $(cat file | wc -l)`.  The shell does not wait for a process substitution, so that
`tee` runs beside `make` and beside `cat`.  Here this is a system of processes whose steps come in any order.

Simplifications: a report is a list of characters; `make` writes all reports before it ends; nothing else writes the file;
the pipe takes any amount of text; `tee` can create the file.
-/

namespace Verif.CheckTests

open Verif.Spec (Text Checker)

/-- What the shell is doing, cmake/Macros.cmake 56 and 63. -/
inductive Shell where
  /-- It waits for `make`. -/
  | making
  /-- `cat` is going to open the file. -/
  | counting
  /-- `cat` has the file open and has read a part of it. -/
  | reading (seen : Text)
  /-- It has ended with a status. -/
  | ended (status : Nat)

/-- The processes and the file of the command, cmake/Macros.cmake 56 and 63. -/
structure State where
  shell : Shell
  /-- What the checker has not yet written. -/
  unwritten : Text
  /-- What it has written and `tee` has not yet read. -/
  pipe : Text
  /-- Whether `tee` has opened the file. -/
  opened : Bool
  /-- `cppcheck.err` or `tidyCheck.err`, if it is there. -/
  file : Option Text

/-- The command is started, cmake/Macros.cmake 56 and 63; an earlier run may have left a file. -/
def start (c : Checker) (left : Option Text) : State := ⟨.making, c.reports, [], false, left⟩

/-- `wc -l`, cmake/Macros.cmake 56 and 63: the ends of lines are counted. -/
def lineCount (t : Text) : Nat := t.count '\n'

/-- One step of one of the processes, cmake/Macros.cmake 56 and 63. -/
inductive Step (c : Checker) : State → State → Prop
  /-- The checker writes a part of its reports. -/
  | report (now later pipe : Text) (opened : Bool) (file : Option Text) :
    Step c ⟨.making, now ++ later, pipe, opened, file⟩ ⟨.making, later, pipe ++ now, opened, file⟩
  /-- `tee` opens the file and makes it empty. -/
  | teeOpen (shell : Shell) (unwritten pipe : Text) (file : Option Text) :
    Step c ⟨shell, unwritten, pipe, false, file⟩ ⟨shell, unwritten, pipe, true, some []⟩
  /-- `tee` copies a part of what has been written. -/
  | teeCopy (shell : Shell) (unwritten now later file : Text) :
    Step c ⟨shell, unwritten, now ++ later, true, some file⟩ ⟨shell, unwritten, later, true, some (file ++ now)⟩
  /-- `make` ends; what is behind `&&` is only run if its status is 0. -/
  | makeEnds (pipe : Text) (opened : Bool) (file : Option Text) :
    Step c ⟨.making, [], pipe, opened, file⟩
      ⟨if c.status = 0 then .counting else .ended (Ci.countedStatus (c.status, 0)), [], pipe, opened, file⟩
  /-- `cat` finds no file, and no lines are counted. -/
  | noFile (unwritten pipe : Text) (opened : Bool) :
    Step c ⟨.counting, unwritten, pipe, opened, none⟩
      ⟨.ended (Ci.countedStatus (c.status, 0)), unwritten, pipe, opened, none⟩
  /-- `cat` opens the file. -/
  | catOpen (unwritten pipe file : Text) (opened : Bool) :
    Step c ⟨.counting, unwritten, pipe, opened, some file⟩ ⟨.reading [], unwritten, pipe, opened, some file⟩
  /-- `cat` reads a part of the file, from where it is. -/
  | catRead (seen now later unwritten pipe file : Text) (opened : Bool) (h : file.drop seen.length = now ++ later) :
    Step c ⟨.reading seen, unwritten, pipe, opened, some file⟩
      ⟨.reading (seen ++ now), unwritten, pipe, opened, some file⟩
  /-- `cat` is at the end of the file; the lines it has read are counted. -/
  | catEnd (seen unwritten pipe file : Text) (opened : Bool) (h : file.length ≤ seen.length) :
    Step c ⟨.reading seen, unwritten, pipe, opened, some file⟩
      ⟨.ended (Ci.countedStatus (c.status, lineCount seen)), unwritten, pipe, opened, some file⟩

/-- Any number of steps, in any order: every schedule of the processes of cmake/Macros.cmake 56 and 63. -/
inductive Run (c : Checker) : State → State → Prop
  | refl (s : State) : Run c s s
  | step {s t u : State} (h : Run c s t) (h1 : Step c t u) : Run c s u

end Verif.CheckTests
