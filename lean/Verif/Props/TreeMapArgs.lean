import Verif.Props.TreeMapMore

/-! Property C80: the leaves of the arguments of a call. -/

namespace LitData.Props
open LitData

theorem treeIterList_flatMap {α : Type} (isJpeg : α → Bool) (isLeaf : Tree α → Bool) : ∀ ts : List (Tree α),
    treeIterList isJpeg isLeaf ts = ts.flatMap (treeIter isJpeg isLeaf)
  | [] => by simp [treeIterList]
  | t :: ts => by simp [treeIterList, treeIterList_flatMap isJpeg isLeaf ts]

/-- **C80, arguments.** The leaves of the arguments of a call are those of the positional arguments, one argument after the other, and then those of the keyword arguments. -/
theorem c80_arg_leaves {α : Type} (isJpeg : α → Bool) (args kwargs : List (Tree α)) :
    argTreeLeaves isJpeg args kwargs = (args ++ kwargs).flatMap (treeIter isJpeg fun _ => false) ∧
    ∀ n, n < (args.flatMap (treeIter isJpeg fun _ => false)).length →
      (argTreeLeaves isJpeg args kwargs)[n]? = (args.flatMap (treeIter isJpeg fun _ => false))[n]? := by
  have h : argTreeLeaves isJpeg args kwargs = args.flatMap (treeIter isJpeg fun _ => false) ++ kwargs.flatMap (treeIter isJpeg fun _ => false) := by
    unfold argTreeLeaves
    rw [treeIterList_flatMap, treeIterList_flatMap]
  exact ⟨by rw [h, List.flatMap_append], fun n hn => by rw [h, List.getElem?_append_left hn]⟩

example : argTreeLeaves (fun _ : Nat => false) [.node .list [.leaf 1, .leaf 2]] [.leaf 3] = [.leaf 1, .leaf 2, .leaf 3] := by
  rw [(c80_arg_leaves _ _ _).1]
  simp [treeIter, treeIterList, isLeafNode, isJpegArray]

end LitData.Props
