/-!
# The program from its arguments to its exit status

Model of `src/main.cpp`, `src/app/src/app/global.cpp`, `match_cli.cpp`, `compare.cpp`, `prepare.cpp` and of `process` in
`options.cpp`.  What boost::program_options makes of the arguments and what the work itself does are parameters.
-/

set_option autoImplicit false

namespace MM.Program

/-- options.hpp 32-34 `MODE` without NONE, the mode to be run. -/
inductive Mode where
  | prepare | match_ | server | compare
deriving DecidableEq

/-- What the arguments and the configuration file hold, read with one description of options: did reading fail (options.cpp
1407-1408), are `--help` and `--version` there (1410, 1414), is a required option missing (`po::notify`, 1418)? -/
structure Parsed where
  bad : Bool
  help : Bool
  version : Bool
  missing : Bool
deriving DecidableEq

/-- The part of the arguments the program looks at: read with the options of all modes, unknown ones are allowed (options.cpp
1356-1358), and read with the options of the chosen mode (`inner`); the mode switches (options.cpp 432-435). -/
structure Args where
  outer : Parsed
  inner : Parsed
  prepare : Bool
  match_ : Bool
  server : Bool
  compare : Bool

/-- Things that happen, in order: help (`all` of options.cpp 1386, with the options of a mode or without mode), version or an error message are written, the work of a mode is done or ends with an
exception. -/
inductive Event where
  | help (m : Option Mode)
  | version | error
  | done (m : Mode)
  | failed (m : Mode)
deriving DecidableEq

/-- options.cpp 1405-1425 `process`: what is written and the result; `asked` is `_show_help_checker` (1371-1382), `who` is
`mode`. -/
def process (p : Parsed) (asked : Bool) (who : Option Mode) : List Event × Bool :=
  if p.bad then ([.error], false)
  else if p.help && asked then ([.help who], false)
  else if p.version then ([.version], false)
  else if p.missing then ([.error], false)
  else ([], true)

/-- options.cpp 1377: no mode switch is there. -/
def noMode (a : Args) : Bool := !a.prepare && !a.match_ && !a.server && !a.compare

/-- options.cpp 45-68 `global_data::correct`: the last of the switches, if there is exactly one. -/
def chosen (a : Args) : Option Mode :=
  if (if a.prepare then 1 else 0) + (if a.match_ then 1 else 0) + (if a.server then 1 else 0) + (if a.compare then 1 else 0) = 1 then
    if a.compare then some .compare else if a.server then some .server else if a.match_ then some .match_ else some .prepare
  else none

/-- match_cli.cpp 44-59, compare.cpp 139-154, prepare.cpp 58-73: read the options, correct them and do the work; `ok` says
whether correction and work end without exception.  The flag says whether an exception leaves the function.  The status 1
of line 51 (146, 65) is the last component. -/
def runMode (m : Mode) (p : Parsed) (ok : Bool) : List Event × Bool × Nat :=
  if (process p true (some m)).2 then
    if ok then ((process p true (some m)).1 ++ [.done m], false, 0) else ((process p true (some m)).1 ++ [.failed m], true, 0)
  else ((process p true (some m)).1, false, 1)

/-- global.cpp 27-41 `_mode`: the status returned by the mode is dropped, nothing is done for the server. -/
def dispatch (m : Mode) (p : Parsed) (ok : Bool) : List Event × Bool :=
  if m = .server then ([], false) else ((runMode m p ok).1, (runMode m p ok).2.1)

/-- global.cpp 43-74 `mode`: what happens and the exit status. -/
def run (a : Args) (ok : Bool) : List Event × Nat :=
  if (process a.outer (noMode a) none).2 then
    match chosen a with
    | none => ((process a.outer (noMode a) none).1 ++ [.error], 2)
    | some m =>
      if (dispatch m a.inner ok).2 then ((process a.outer (noMode a) none).1 ++ (dispatch m a.inner ok).1 ++ [.error], 3)
      else ((process a.outer (noMode a) none).1 ++ (dispatch m a.inner ok).1, 0)
  else ((process a.outer (noMode a) none).1, 1)

end MM.Program
