import Verif.Model.Command

/-!
# Model of the client program

`remote-process/main.cpp`: one command is sent to a running system, and its answer is shown.
-/

namespace PF

/-- What a run of the client ends with.  All but the first exit with 1, `stopped` excepted. -/
inductive ClientEnd where
  /-- The answer of a command that succeeded, on the standard output (main.cpp:70-72). -/
  | printed (text : BText)
  /-- The answer of a command that failed, on the standard error (main.cpp:63-67). -/
  | failed (text : BText)
  /-- No answer, or one that cannot be read (main.cpp:56-60). -/
  | lost
  /-- Too few arguments (main.cpp:81-90). -/
  | usage
  /-- Nobody listens (main.cpp:98-104). -/
  | notConnected
  /-- A failed assertion. -/
  | stopped
deriving Repr, DecidableEq

/-- The exit status (main.cpp:89, 103, 115, 119); none if the program does not exit by itself. -/
def ClientEnd.status : ClientEnd → Option Nat
  | .printed _ => some 0
  | .stopped => none
  | _ => some 1

/-- A run of the client (main.cpp:43-120) against a system (`none`: it does not run any more) and what becomes of the
system.  `reaches host port` says whether that is where it listens.  The system serves one connection at a time
(RemoteProcessorServer.cpp:78-96): it receives what the client sends, and then the end of the connection. -/
def clientRun (u : Unmodelled) (e : MEnv) (reaches : BText → BText → Bool) (h : Option Host) (argv : List BText) :
    ClientEnd × Option Host :=
  match argv with
  | _ :: host :: port :: cmd :: args =>
    match h with
    | none => (.notConnected, none)
    | some h =>
      if !reaches host port then (.notConnected, some h)
      else
        match (args.foldl Request.addArgument (Request.new cmd)).send with
        | .ok bytes =>
          let r := serve (remoteCommand u e) (bytes.length + 1) h bytes
          (match receiveAnswer r.2.1 with
            | .success a _ => if a.success then .printed a.text else .failed a.text
            | .abort => .stopped
            | _ => .lost,
           match r.2.2 with
            | .closed => some r.1
            | .abort => none)
        | _ => (.stopped, some h)
  | _ => (.usage, h)

/-- Runs one after the other. -/
def clientRuns (u : Unmodelled) (e : MEnv) (reaches : BText → BText → Bool) : Option Host → List (List BText) →
    List ClientEnd × Option Host
  | h, [] => ([], h)
  | h, a :: as =>
    let r := clientRun u e reaches h a
    let rest := clientRuns u e reaches r.2 as
    (r.1 :: rest.1, rest.2)

end PF
