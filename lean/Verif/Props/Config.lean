/-
The options of an engine (C111-C113).
-/
import Verif.Lemmas.ConfigSafe

namespace Verif.Config.Props

open Verif.Config Verif.Config.Spec

/-- **C111**, for options that are written as `key=value;key=value` without blanks around `=` and at
    the ends, with values that are not empty, and with amounts that fit and do not end in `t`.
    Each known option gets the value that is written for it, and the code is 0, or 1 if there are
    unknown ones.  What is missing are the other ways of writing, for which it is false. -/
theorem C111_partial (g : Cfg) (fs : Text → Option Text) (depth : Nat) (kvs : List (Text × Text))
    (st new : Stored) (hw : Writable kvs) (hs : Stores g.items g.strtof kvs new) :
    parse g fs depth (render kvs) st =
      some (if ∃ x ∈ kvs, Unknown g.items x.1 then 1 else 0, st ++ new) := by
  have hf : kvs.length < (render kvs).length + 1 := by have := render_len hw; omega
  cases depth with
  | zero => exact loop_ok hw hs hf
  | succ d => exact loop_ok hw hs hf

/-- Some options of the default engine (default_engine.c 197-231). -/
def demo : Cfg :=
  { items := [(str "use_cas", .bool), (str "cache_size", .size), (str "max_list_size", .u32),
      (str "prefix_delimiter", .char), (str "data_path", .string), (str "config_file", .file)],
    strtof := fun _ => none }

def demoOpts : List (Text × Text) :=
  [(str "cache_size", str "2g"), (str "colour", str "red"), (str "data_path", str "/a;b"), (str "use_cas", str "On")]

example : Writable demoOpts ∧ Stores demo.items demo.strtof demoOpts
    [(str "cache_size", .size 2147483648), (str "data_path", .string (str "/a;b")), (str "use_cas", .bool true)] := by
  have hsp : ∀ c ∈ [99, 50, 114, 100, 47, 117, 79, 110], ¬ Verif.Util.Spec.Space c := by
    unfold Verif.Util.Spec.Space; decide
  constructor
  · constructor
    · intro x hx
      simp only [demoOpts, List.mem_cons, List.not_mem_nil, or_false] at hx
      rcases hx with rfl | rfl | rfl | rfl
      all_goals
        refine ⟨⟨by decide, by decide, fun c hc => ?_, by decide⟩, by decide, by decide, fun c hc => ?_, by decide⟩
        all_goals
          apply hsp
          simp [str] at hc
          subst hc
          decide
    · intro x c hx hc
      simp only [demoOpts, List.getLast?_cons_cons, List.getLast?_singleton, Option.some.injEq] at hx
      subst hx
      apply hsp
      simp [str] at hc
      subst hc
      decide
  · refine .known (dt := .size) ⟨[_], _, rfl, by decide⟩
      ⟨2147483648, ⟨[50], str "g", 3, by decide, by decide, by
        intro d hd; rw [List.mem_singleton.mp hd]; unfold Verif.Util.Spec.Digit; omega, by decide,
        Or.inr (Or.inr (Or.inr (Or.inl ⟨by decide, rfl⟩)))⟩, by decide, rfl⟩ (fun _ => ⟨by decide, by decide⟩) ?_
    refine .unknown (by decide) ?_
    refine .known (dt := .string) ⟨[_, _, _, _], _, rfl, by decide⟩ rfl (fun h => by simp at h) ?_
    exact .known (dt := .bool) ⟨[], _, rfl, by decide⟩ (Or.inl ⟨Or.inr (by unfold sameWord; decide), rfl⟩)
      (fun h => by simp at h) .nil

/-- **C111 is false.**  In this order: `4t` is 0; four gigabytes for an option of 32 bits are 0
    without an error; an empty value takes the next option as its own; blanks before `=` belong to
    the name. -/
theorem C111_false :
    parse demo (fun _ => none) 0 (str "cache_size=4t") [] = some (0, [(str "cache_size", .size 0)]) ∧
    Amount (str "4t") 4398046511104 ∧
    parse demo (fun _ => none) 0 (str "max_list_size=4g") [] = some (0, [(str "max_list_size", .u32 0)]) ∧
    Amount (str "4g") 4294967296 ∧
    parse demo (fun _ => none) 0 (str "data_path=;use_cas=off") [] =
      some (0, [(str "data_path", .string (str ";use_cas=off"))]) ∧
    parse demo (fun _ => none) 0 (str "cache_size = 2g") [] = some (1, []) := by
  have hd : ∀ d ∈ [52], Verif.Util.Spec.Digit d := by
    intro d hd; rw [List.mem_singleton.mp hd]; unfold Verif.Util.Spec.Digit; omega
  refine ⟨by decide +kernel, ?_, by decide +kernel, ?_, by decide +kernel, by decide +kernel⟩
  · exact ⟨[52], str "t", 4, by decide, by decide, hd, by decide,
      Or.inr (Or.inr (Or.inr (Or.inr ⟨by decide, rfl⟩)))⟩
  · exact ⟨[52], str "g", 3, by decide, by decide, hd, by decide,
      Or.inr (Or.inr (Or.inr (Or.inl ⟨by decide, rfl⟩)))⟩

/-- **C112**, for texts without backslashes whose last option has a `=`, and without files.  Reading
    the options stays within the text and the buffers.  What is missing are the other texts, for
    which it is false. -/
theorem C112_partial (g : Cfg) (fs : Text → Option Text) (depth : Nat) (s : Text) (st : Stored)
    (hfile : ∀ x ∈ g.items, x.2 ≠ .file) (hs : LastHasValue s) : parse g fs depth s st ≠ none := by
  obtain ⟨h92, a, x, v, rfl, hx, hx59, hv⟩ := hs
  cases depth with
  | zero => exact loop_safe hfile hx hx59 hv h92 (Or.inl ⟨a, rfl⟩) (Nat.lt_succ_self _)
  | succ d => exact loop_safe hfile hx hx59 hv h92 (Or.inl ⟨a, rfl⟩) (Nat.lt_succ_self _)

example : LastHasValue (str "a;;=b = ;c==d;;verbose=  ") := by
  refine ⟨by decide, str "a;;=b = ;c==d;;verbos", 101, str "  ", by decide, ?_, by decide, by decide⟩
  unfold Verif.Util.Spec.Space; decide

/-- **C112 is false.**  A name without `=` makes the parser read behind the text; 80 backslashes make
    it write before its buffer for names. -/
theorem C112_false :
    parse demo (fun _ => none) 0 (str "use_cas=on;cache_size") [] = none ∧
    parse demo (fun _ => none) 0 (List.replicate 80 92 ++ str "a=1") [] = none ∧
    trimCopy 80 (str "cache_size") 61 = some (true, str "cache_size", []) ∧
    (copyLoop 80 (limit (List.replicate 80 92 ++ str "a=1")) 61 (List.replicate 80 92 ++ str "a=1") 0 []).2.1 = [] := by
  refine ⟨by decide +kernel, by decide +kernel, by decide +kernel, by decide +kernel⟩

/-- **C113**, for options written as in C111, whatever the values, and without files.  If one of the
    options is unknown the code is not 0.  What is missing are the other ways of writing and files,
    for which it is false. -/
theorem C113_partial (g : Cfg) (fs : Text → Option Text) (depth : Nat) (kvs : List (Text × Text))
    (st : Stored) (hw : Writable kvs) (hfile : ∀ x ∈ g.items, x.2 ≠ .file)
    (hu : ∃ x ∈ kvs, Unknown g.items x.1) :
    ∃ c st', parse g fs depth (render kvs) st = some (c, st') ∧ c ≠ 0 := by
  have hf : kvs.length < (render kvs).length + 1 := by have := render_len hw; omega
  cases depth with
  | zero => exact loop_unknown hfile hw hf (Or.inr hu)
  | succ d => exact loop_unknown hfile hw hf (Or.inr hu)

example : ∃ x ∈ demoOpts, Unknown demo.items x.1 :=
  ⟨(str "colour", str "red"), by decide, by decide⟩

/-- **C113 is false.**  A blank at the end makes the parser forget that an option is unknown, and so
    does the end of a line in a file. -/
theorem C113_false :
    Unknown demo.items (str "cache_sise") ∧
    parse demo (fun _ => none) 0 (str "cache_sise=2g; ") [] = some (0, []) ∧
    parse demo (fun n => if n = str "x" then some (str "cache_sise=2g\nuse_cas=off\n") else none) 1
      (str "config_file=x") [] = some (0, [(str "use_cas", .bool false)]) := by
  refine ⟨by decide, by decide +kernel, by decide +kernel⟩

end Verif.Config.Props
