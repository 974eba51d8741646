import Verif.Model.Profiler
import Verif.Spec.Json
import Mathlib.Tactic.Common

/-! # Properties of the profiler -/

namespace PathPlanning.Prof
open Spec

/-- The text of the events, in order. -/
private def eventText (events : List Result) : Text := (events.map Result.json).flatten

private theorem run_append (p : Profiler) (a b : List Op) : run p (a ++ b) = run (run p a) b :=
  List.foldl_append

private theorem run_writes (f : Nat) (events : List Result) : ∀ p : Profiler, p.session = some f →
    run p (events.map .write) = ⟨some f, append p.files f (eventText events)⟩ := by
  induction events with
  | nil =>
    rintro ⟨s, files⟩ h
    have h : s = some f := h
    subst h
    simp only [List.map_nil, run, List.foldl_nil, Profiler.mk.injEq, true_and]
    funext g; simp [append, eventText]
  | cons e es ih =>
    rintro ⟨s, files⟩ h
    have h : s = some f := h
    subst h
    show run (writeProfile ⟨some f, files⟩ e) (es.map .write) = _
    rw [ih _ rfl]
    simp only [writeProfile, Profiler.mk.injEq, true_and]
    funext g
    by_cases hg : g = f <;> simp [append, eventText, hg]

/-- C62: whatever happened before, once a session has been opened on file `f` and closed, by
`EndSession` or by a later `BeginSession` on another file (which may fail), the file holds the header, the
events written in between, in order, and the footer. -/
theorem C62_session_file (p : Profiler) (before : List Op) (f : Nat) (events : List Result)
    (close : Op) (hc : close = .endSession ∨ ∃ g o, g ≠ f ∧ close = .beginSession g o) :
    (run p (before ++ .beginSession f true :: (events.map .write ++ [close]))).files f =
      header ++ (events.map Result.json).flatten ++ footer := by
  rw [run_append]
  obtain ⟨q, hq⟩ : ∃ q, q = run p before := ⟨_, rfl⟩
  rw [← hq]
  show (run (beginSession q f true) (events.map .write ++ [close])).files f = _
  rw [run_append, run_writes f events _ (by simp [beginSession])]
  rcases hc with rfl | ⟨g, o, hg, rfl⟩
  · simp [run, call, internalEnd, append, beginSession, eventText]
  · cases o <;> simp [run, call, internalEnd, append, beginSession, eventText, hg.symm]

/-- C62: nothing else touches a file: it changes only while a session is open on it or opens it. -/
theorem C62_other_files_untouched (f : Nat) : ∀ (h : List Op) (p : Profiler),
    p.session ≠ some f → (∀ o, Op.beginSession f o ∉ h) → (run p h).files f = p.files f := by
  intro h
  induction h with
  | nil => intros; rfl
  | cons c cs ih =>
    intro p hp hh
    have hcs : ∀ o, Op.beginSession f o ∉ cs := fun o ho => hh o (List.mem_cons_of_mem _ ho)
    show (run (call p c) cs).files f = _
    obtain ⟨s, files⟩ := p
    have key : (call ⟨s, files⟩ c).session ≠ some f ∧ (call ⟨s, files⟩ c).files f = files f := by
      cases c with
      | beginSession g o =>
        have hg : f ≠ g := by rintro rfl; exact hh o (List.mem_cons_self ..)
        cases s with
        | none => cases o <;> simp [call, beginSession, internalEnd, append, hg, hg.symm]
        | some k =>
          have hk : f ≠ k := fun e => hp (by rw [e])
          cases o <;> simp [call, beginSession, internalEnd, append, hg, hg.symm, hk]
      | write r =>
        cases s with
        | none => simp [call, writeProfile]
        | some k =>
          have hk : f ≠ k := fun e => hp (by rw [e])
          simp [call, writeProfile, append, hk, hk.symm]
      | endSession =>
        cases s with
        | none => simp [call, internalEnd]
        | some k =>
          have hk : f ≠ k := fun e => hp (by rw [e])
          simp [call, internalEnd, append, hk]
    rw [ih _ key.1 hcs, key.2]

/-- C62: the file left by the profiler: the constructor opens the session and the destructor closes it. -/
theorem C62_lifetime (files : Nat → Text) (f : Nat) (events : List Result) :
    (lifetime files f true events).files f =
      header ++ (events.map Result.json).flatten ++ footer := by
  simpa [lifetime] using C62_session_file ⟨none, files⟩ [] f events .endSession (Or.inl rfl)

/-- C62: without a file, events are dropped and nothing is written. -/
theorem C62_cannot_open (files : Nat → Text) (f : Nat) (events : List Result) :
    (lifetime files f false events).files = files := by
  show (run (beginSession ⟨none, files⟩ f false) (events.map .write ++ [.endSession])).files = files
  rw [run_append]
  have hb : beginSession ⟨none, files⟩ f false = ⟨none, files⟩ := rfl
  rw [hb]
  have : ∀ es : List Result, run ⟨none, files⟩ (es.map .write) = ⟨none, files⟩ := by
    intro es
    induction es with
    | nil => rfl
    | cons e es ih => exact ih
  rw [this]; rfl

private theorem json_object (members : List (List Char × List Char))
    (h : ∀ m ∈ members, (∀ c ∈ m.1, PlainChar c) ∧ Json m.2) :
    Json ('{' :: (((members.map fun m => jsonString m.1 ++ ':' :: m.2).intersperse [',']).flatten ++
      ['}'])) :=
  Json.object members (fun m hm => (h m hm).1) (fun m hm => (h m hm).2)

private theorem json_event (r : Result) (hn : ∀ c ∈ r.name, PlainChar c) :
    ∃ t, Json t ∧ r.json = ',' :: t := by
  refine ⟨_, Json.space ['\n'] _ (by simp [IsSpace]) (json_object
    [("cat".toList, jsonString "function".toList), ("dur".toList, int (r.stop - r.start)),
     ("name".toList, jsonString r.name), ("ph".toList, jsonString "X".toList),
     ("pid".toList, int 0), ("tid".toList, int r.tid), ("ts".toList, int r.start)] ?_), ?_⟩
  · intro m hm
    simp only [List.mem_cons, List.not_mem_nil, or_false] at hm
    have hp : ∀ s ∈ ["cat", "dur", "name", "ph", "pid", "tid", "ts", "function", "X"],
        ∀ c ∈ s.toList, PlainChar c := by unfold PlainChar; decide
    rcases hm with rfl | rfl | rfl | rfl | rfl | rfl | rfl
    · exact ⟨hp "cat" (by simp), .string _ (hp "function" (by simp))⟩
    · exact ⟨hp "dur" (by simp), .int _⟩
    · exact ⟨hp "name" (by simp), .string _ hn⟩
    · exact ⟨hp "ph" (by simp), .string _ (hp "X" (by simp))⟩
    · exact ⟨hp "pid" (by simp), .int _⟩
    · exact ⟨hp "tid" (by simp), .int _⟩
    · exact ⟨hp "ts" (by simp), .int _⟩
  · have e1 : ",\n{".toList = [',', '\n', '{'] := by decide
    have e2 : "\"cat\":\"function\",".toList =
      jsonString "cat".toList ++ ':' :: (jsonString "function".toList ++ [',']) := by decide
    have e3 : "\"dur\":".toList = jsonString "dur".toList ++ [':'] := by decide
    have e4 : ",".toList = [','] := by decide
    have e5 : "\"name\":\"".toList = jsonString "name".toList ++ [':', '"'] := by decide
    have e6 : "\",".toList = ['"', ','] := by decide
    have e7 : "\"ph\":\"X\",".toList =
      jsonString "ph".toList ++ ':' :: (jsonString "X".toList ++ [',']) := by decide
    have e8 : "\"pid\":0,".toList = jsonString "pid".toList ++ ':' :: (int 0 ++ [',']) := by decide
    have e9 : "\"tid\":".toList = jsonString "tid".toList ++ [':'] := by decide
    have e10 : "\"ts\":".toList = jsonString "ts".toList ++ [':'] := by decide
    have e11 : "}".toList = ['}'] := by decide
    unfold Result.json
    rw [e1, e2, e3, e4, e5, e6, e7, e8, e9, e10, e11]
    simp only [jsonString, List.map_cons, List.map_nil, List.intersperse, List.flatten_cons,
      List.flatten_nil, List.append_assoc, List.cons_append, List.nil_append, List.append_nil]

private theorem flatten_commas : ∀ (a : Text) (l : List Text),
    ((a :: l).intersperse [',']).flatten = a ++ (l.map (',' :: ·)).flatten := by
  intro a l
  induction l generalizing a with
  | nil => simp
  | cons b l ih => simp [List.intersperse_cons_cons, ih]

/-- C62: if the names of the events contain no quote, backslash or control character, a closed session
file is a JSON text: an object whose `traceEvents` is an array with one object per event, in order. -/
theorem C62_json (p : Profiler) (before : List Op) (f : Nat) (events : List Result)
    (hn : ∀ e ∈ events, ∀ c ∈ e.name, PlainChar c) :
    Json ((run p (before ++ .beginSession f true :: (events.map .write ++ [.endSession]))).files f) := by
  rw [C62_session_file p before f events .endSession (Or.inl rfl)]
  have hl : ∃ l : List Text, (∀ t ∈ l, Json t) ∧
      (events.map Result.json).flatten = (l.map (',' :: ·)).flatten := by
    clear p before f
    induction events with
    | nil => exact ⟨[], by simp, by simp⟩
    | cons e es ih =>
      obtain ⟨l, h1, h2⟩ := ih fun x hx => hn x (List.mem_cons_of_mem _ hx)
      obtain ⟨t, h3, h4⟩ := json_event e (hn e (List.mem_cons_self ..))
      refine ⟨t :: l, ?_, ?_⟩
      · intro x hx
        rcases List.mem_cons.mp hx with rfl | hx
        · exact h3
        · exact h1 x hx
      · simp [h2, h4]
  obtain ⟨l, h1, h2⟩ := hl
  have he : Json ['{', '}'] := Json.object [] (by simp) (by simp)
  have ha := Json.array (['{', '}'] :: l) (by
    intro i hi
    rcases List.mem_cons.mp hi with rfl | hi
    · exact he
    · exact h1 i hi)
  rw [flatten_commas, ← h2] at ha
  obtain ⟨ev, hev⟩ : ∃ ev, ev = (events.map Result.json).flatten := ⟨_, rfl⟩
  rw [← hev] at ha ⊢
  have ho := json_object [("otherData".toList, ' ' :: ['{', '}']),
    ("traceEvents".toList, '[' :: ((['{', '}'] ++ ev) ++ [']']))] (by
    intro m hm
    simp only [List.mem_cons, List.not_mem_nil, or_false] at hm
    rcases hm with rfl | rfl
    · exact ⟨by unfold PlainChar; decide, Json.space [' '] _ (by simp [IsSpace]) he⟩
    · refine ⟨?_, ha⟩
      show ∀ c ∈ "traceEvents".toList, PlainChar c
      unfold PlainChar; decide)
  have hh : header = '{' :: (jsonString "otherData".toList ++ [':', ' ', '{', '}', ','] ++
    jsonString "traceEvents".toList ++ [':', '[', '{', '}']) := by decide
  have hf : footer = [']', '}'] := by decide
  rw [hh, hf]
  simpa only [List.map_cons, List.map_nil, List.intersperse, List.flatten_cons, List.flatten_nil,
    List.append_assoc, List.cons_append, List.nil_append, List.append_nil] using ho

/-- A profiler that has two events: its file. -/
example : String.ofList ((lifetime (fun _ => []) 0 true
      [⟨"f".toList, 1, 3, 7⟩, ⟨"g".toList, 2, 3, 7⟩]).files 0) =
    "{\"otherData\": {},\"traceEvents\":[{},\n" ++
    "{\"cat\":\"function\",\"dur\":2,\"name\":\"f\",\"ph\":\"X\",\"pid\":0,\"tid\":7,\"ts\":1},\n" ++
    "{\"cat\":\"function\",\"dur\":1,\"name\":\"g\",\"ph\":\"X\",\"pid\":0,\"tid\":7,\"ts\":2}]}" := by
  decide +kernel

/-! ## Names of profiled scopes -/

private theorem skip_suffix (remove expr : Text) : skip remove expr <:+ expr := by
  unfold skip
  split
  · exact List.drop_suffix _ _
  · exact List.suffix_refl _

/-- C69: the cleaned-up name is the literal with some characters removed and every double quote
replaced by a single quote; so it is no longer than the literal (it fits in the buffer). -/
theorem C69_characters_removed_and_quotes_replaced (remove expr : Text) :
    ∃ kept : Text, kept.Sublist expr ∧
      cleanup remove expr = kept.map fun c => if c = '"' then '\'' else c := by
  generalize hn : expr.length = n
  induction n using Nat.strongRecOn generalizing expr with
  | ind n ih =>
    rw [cleanup]
    have hsuf := skip_suffix remove expr
    split
    · exact ⟨[], List.nil_sublist _, rfl⟩
    · rename_i d ds h
      rw [h] at hsuf
      have hl := hsuf.length_le
      rw [List.length_cons] at hl
      obtain ⟨k, hk, he⟩ := ih ds.length (by omega) ds rfl
      exact ⟨d :: k, (hk.cons_cons d).trans hsuf.sublist, by rw [he]; rfl⟩

/-- C69: the cleaned-up name contains no double quote. -/
theorem C69_no_double_quote (remove expr : Text) : '"' ∉ cleanup remove expr := by
  obtain ⟨k, _, hk⟩ := C69_characters_removed_and_quotes_replaced remove expr
  rw [hk]
  intro h
  obtain ⟨c, _, hc⟩ := List.mem_map.mp h
  split at hc
  · exact absurd hc (by decide)
  · rename_i h; exact h hc

private theorem matched_prefix : ∀ expr remove : Text,
    matched expr remove = remove.length → remove <+: expr
  | [], [], _ => List.prefix_refl _
  | [], _ :: _, h => by simp [matched] at h
  | _ :: _, [], _ => List.nil_prefix
  | a :: e, b :: r, h => by
    unfold matched at h
    split at h
    · rename_i hab
      have := matched_prefix e r (by simpa using h)
      rw [hab]
      exact (List.prefix_cons_inj b).mpr this
    · simp at h

/-- C69: if the text to remove does not occur, only quotes are replaced. -/
theorem C69_unchanged_without_occurrence (remove expr : Text) (h : ¬ remove <:+: expr) :
    cleanup remove expr = expr.map fun c => if c = '"' then '\'' else c := by
  induction expr with
  | nil =>
    rw [cleanup]
    have : skip remove [] = [] := List.suffix_nil.mp (skip_suffix remove [])
    split
    · rfl
    · rename_i h'; rw [this] at h'; cases h'
  | cons c cs ih =>
    have hs : skip remove (c :: cs) = c :: cs := by
      unfold skip
      rw [if_neg]
      intro hm
      exact h (matched_prefix _ _ hm).isInfix
    rw [cleanup]
    split
    · rename_i h'; rw [hs] at h'; cases h'
    · rename_i d ds h'
      rw [hs] at h'
      injection h' with h1 h2
      subst h1; subst h2
      rw [ih fun hi => h (List.infix_cons hi)]
      rfl

/-- C69: an occurrence that is not followed by another one is removed. -/
theorem C69_occurrence_removed (remove : Text) (c : Char) (rest : Text) (hr : remove ≠ []) :
    cleanup remove (remove ++ c :: rest) = (if c = '"' then '\'' else c) :: cleanup remove rest := by
  have hm : ∀ (a b : Text), matched (a ++ b) a = a.length := by
    intro a b
    induction a with
    | nil => cases b <;> rfl
    | cons x a ih => simp [matched, ih]
  have hs : skip remove (remove ++ c :: rest) = c :: rest := by
    unfold skip
    rw [if_pos (hm _ _)]
    simp
  rw [cleanup]
  split
  · rename_i h'; rw [hs] at h'; cases h'
  · rename_i d ds h'
    rw [hs] at h'
    injection h' with h1 h2
    subst h1; subst h2
    rfl

example : cleanup "__cdecl ".toList "void __cdecl f(\"x\")".toList = "void f('x')".toList := by
  decide +kernel

/-- Two occurrences in a row: only the first one is removed. -/
theorem C69_second_of_two_occurrences_stays :
    cleanup "__cdecl ".toList "__cdecl __cdecl f".toList = "__cdecl f".toList := by
  decide +kernel

end PathPlanning.Prof
