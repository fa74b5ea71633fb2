import Verif.Lemmas.EddText
import Verif.Props.Edd

/-!
# C94: descriptions of domains are read as they are written
-/

namespace PF
open Spec

/-- C94: a description is accepted exactly when its lines, but for those that are blank or comments, are those of a tree of elements in
the usual order, each indented by one more than the element it is under, and each under one that may hold it; then this tree is what is
read. -/
theorem C94_read_iff (lines : List Str) (tree : EddNode) : eddParse lines = .ok tree ↔
    tree.el = .root ∧ EddPermitted tree ∧ eddSignificant lines = .ok (eddPreorderAll 1 tree.kids) :=
  eddParse_iff lines tree

/-- C94: what is written is read back: the lines of any tree of elements, with names and values that lines can say, give this tree. -/
theorem C94_written_is_read {kids : List EddNode} (hp : EddPermitted (.mk .root kids))
    (hw : ∀ x ∈ eddPreorderAll 1 kids, EddWritable x.2) : eddParse (eddWritten (.mk .root kids)) = .ok (.mk .root kids) := by
  rw [C94_read_iff]
  exact ⟨rfl, hp, eddSignificant_written _ fun x hx => ⟨eddPreorderAll_rank kids 1 x hx, hw x hx⟩⟩

/-- C94: blank lines and comments (that are indented with tabs) change nothing, wherever they are. -/
theorem C94_ignored {line : Str} (h : EddIgnored line) (a b : List Str) :
    eddParse (a ++ line :: b) = eddParse (a ++ b) ∧ eddCommands (a ++ line :: b) = eddCommands (a ++ b) := by
  have e : eddParse (a ++ line :: b) = eddParse (a ++ b) := by
    unfold eddParse
    rw [eddLoop_ignored h]
  refine ⟨e, ?_⟩
  unfold eddCommands
  rw [e]

/-- C94: spaces at the end of a line change nothing. -/
theorem C94_trailing_spaces {e : EddElem} (h : EddWritable e) (n m : Nat) (a b : List Str) :
    eddParse (a ++ (List.replicate n '\t' ++ (eddWrite e ++ List.replicate m ' ')) :: b) =
      eddParse (a ++ (List.replicate n '\t' ++ eddWrite e) :: b) := by
  have e1 := eddLine_write h n m
  have e0 := eddLine_write h n 0
  rw [List.replicate_zero, List.append_nil] at e0
  unfold eddParse
  rw [eddLoop_congr (e1.trans e0.symm)]

/-! ## A written description -/

example : eddWritten sampleEddTree =
    [s "domainGroup: Audio", s "\tDevice Includes B", s "\tconfGroup: Call", s "\t\tMode Is InCall",
     s "\tdomain: Volume sequenceAware", s "\t\tconf: Call", s "\t\t\tcomponent: /sys", s "\t\t\t\tvol = 3",
     s "\t\t\t/on = 1", s "\t\tconf: Other", s "\t\t\tANY", s "\t\t\t\tMode Is Idle", s "\t\t\t\tMode IsNot InCall",
     s "\t\t\t/on = 0", s "\t\t\t/sys/vol = 1"] := by decide +kernel

example : EddPermitted sampleEddTree ∧ ∀ x ∈ eddPreorderAll 1 sampleEddTree.kids, EddWritable x.2 := by
  constructor
  · simp [EddPermitted, EddPermittedAll, sampleEddTree, sampleEddAudio, sampleEddDomain, sampleEddCall, sampleEddOther, sampleEddRule,
      sampleEddGroup, eddMayBeIn, EddElem.isDomain, EddElem.isDomainGroup, EddElem.isConf, EddElem.isConfGroup, EddNode.el]
  · simp [eddPreorderAll, eddPreorder, sampleEddTree, EddNode.kids, sampleEddAudio, sampleEddDomain, sampleEddCall, sampleEddOther,
      sampleEddRule, sampleEddGroup, EddWritable, EddTrimmed, EddWord, s, pySpace]
    refine ⟨?_, ?_, ?_, ?_, ?_, ?_, ?_⟩ <;> (rintro c (rfl | rfl) <;> decide)

example : EddIgnored (s "\t \t") ∧ EddIgnored (s "\t# conf: C") :=
  ⟨.inl (by decide), .inr ⟨1, s " conf: C", rfl⟩⟩

/-! ## Lines that are not what they look like -/

/-- C94 (limit): a comment that is indented with spaces is an error. -/
theorem C94_comment_after_spaces : eddCommands [s " # comment"] = .error .spaceInIndentation := rfl

/-- C94 (limit): the name of a configuration cannot have an equal sign: the line is then that of a parameter, and refused for its
place. -/
theorem C94_equal_sign_in_name : eddLine (s "\tconf: a=b") = .ok (some (2, .path (s "conf: a") (s "b"))) := rfl

/-- C94 (limit): the value of a rule goes up to the end of the line, whatever the words. -/
theorem C94_rule_with_more_words :
    eddLine (s "Mode Is Idle , Device Includes B") = .ok (some (1, .rule (s "Mode") (s "Is") (s "Idle , Device Includes B"))) := rfl

end PF
