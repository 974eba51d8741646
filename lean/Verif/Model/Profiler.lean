/-!
# Model of the profiler (planner/src/debug/profiler.h, planner/src/debug/profiler.cpp)

Text is a list of characters. Each public function holds the mutex while it touches the state, so
concurrent calls are a sequence of calls. A thread identifier is printed as an integer. Log messages
and the time measurement are not modelled.
-/

namespace PathPlanning.Prof

/-- Text. -/
abbrev Text := List Char

/-- debug/profiler.h:18-22 -/
structure Result where
  name : Text
  start : Int
  stop : Int
  tid : Int

/-- An integer as `operator<<` prints it. -/
def int (n : Int) : Text := (toString n).toList

/-- debug/profiler.cpp:39-49, the text of one event. -/
def Result.json (r : Result) : Text :=
  ",\n{".toList ++
  "\"cat\":\"function\",".toList ++
  "\"dur\":".toList ++ int (r.stop - r.start) ++ ",".toList ++
  "\"name\":\"".toList ++ r.name ++ "\",".toList ++
  "\"ph\":\"X\",".toList ++
  "\"pid\":0,".toList ++
  "\"tid\":".toList ++ int r.tid ++ ",".toList ++
  "\"ts\":".toList ++ int r.start ++
  "}".toList

/-- debug/profiler.cpp:58-62, `WriteHeader`. -/
def header : Text := "{\"otherData\": {},\"traceEvents\":[{}".toList

/-- debug/profiler.cpp:64-68, `WriteFooter`. -/
def footer : Text := "]}".toList

/-- debug/profiler.h:61-63: the file of the current session (the session exists exactly when the stream
is open), and the contents of the files. Files are named by numbers. -/
structure Profiler where
  session : Option Nat
  files : Nat → Text

/-- Append to a file. -/
def append (files : Nat → Text) (f : Nat) (s : Text) : Nat → Text :=
  fun g => if g = f then files g ++ s else files g

/-- debug/profiler.cpp:70-78, `InternalEndSession`. -/
def internalEnd (p : Profiler) : Profiler :=
  match p.session with
  | some f => ⟨none, append p.files f footer⟩
  | none => p

/-- debug/profiler.cpp:8-29, `BeginSession`; `opens` says if the file can be opened, in which case it
is emptied. -/
def beginSession (p : Profiler) (f : Nat) (opens : Bool) : Profiler :=
  let p := internalEnd p
  if opens then ⟨some f, append (fun g => if g = f then [] else p.files g) f header⟩ else p

/-- debug/profiler.cpp:37-56, `WriteProfile`. -/
def writeProfile (p : Profiler) (r : Result) : Profiler :=
  match p.session with
  | some f => { p with files := append p.files f r.json }
  | none => p

/-- A call. -/
inductive Op where
  | beginSession (f : Nat) (opens : Bool)
  | write (r : Result)
  /-- debug/profiler.cpp:31-35 -/
  | endSession

/-- The effect of a call. -/
def call (p : Profiler) : Op → Profiler
  | .beginSession f o => beginSession p f o
  | .write r => writeProfile p r
  | .endSession => internalEnd p

/-- The effect of a history of calls. -/
def run (p : Profiler) (h : List Op) : Profiler := h.foldl call p

/-- debug/profiler.h:47-50, 36-39: the life of a profiler that writes to file `f`: constructor, events,
destructor. -/
def lifetime (files : Nat → Text) (f : Nat) (opens : Bool) (events : List Result) : Profiler :=
  run ⟨none, files⟩ (.beginSession f opens :: (events.map .write ++ [.endSession]))

/-- debug/profiler.h:115-116: how many characters of `remove` are matched at the start of `expr`, which
excludes the terminating null character. -/
def matched : Text → Text → Nat
  | a :: expr, b :: remove => if a = b then matched expr remove + 1 else 0
  | _, _ => 0

/-- debug/profiler.h:119 -/
def fixQuote (c : Char) : Char := if c = '"' then '\'' else c

/-- debug/profiler.h:117-118: what is left after the text to remove is skipped. -/
def skip (remove expr : Text) : Text :=
  if matched expr remove = remove.length then expr.drop remove.length else expr

/-- debug/profiler.h:108-123, `CleanupOutputString`. `expr` is what is left of the literal, without its
terminating null character; the result is what is written, without the null characters that follow
it. When the literal ends after the removed text, the null character is copied and the loop ends. -/
def cleanup (remove expr : Text) : Text :=
  match h : skip remove expr with
  | [] => []
  | d :: ds => fixQuote d :: cleanup remove ds
termination_by expr.length
decreasing_by
  have h1 : (d :: ds).length ≤ expr.length := by
    rw [← h]
    unfold skip
    split
    · rw [List.length_drop]; exact Nat.sub_le _ _
    · exact Nat.le_refl _
  exact h1

end PathPlanning.Prof
