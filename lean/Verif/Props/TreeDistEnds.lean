import Verif.Props.TreePrograms
import Verif.Props.TreeDistCalls
import Verif.Props.TreeDraw
/-!
# C121 for distributions
-/

namespace Cjk
open Py Spec

/-- C121: making and copying a distribution, with any count method or none, ends exactly if the nodes below the root contain no loop; for a root that has a
parent with children they raise.  A count method that does not end itself is not in the model. -/
theorem C121_dist_ends_iff (h : Heap) (hok : NodesOk h) (r : Nat) (hr : r < h.length) :
    (parentTruthy h r = true → ∀ (ar : Arith) m fuel, treeDist ar m h fuel r = some (.error .genericException) ∧
      treeDistCopy ar h fuel r = some (.error .genericException)) ∧
    (parentTruthy h r = false →
      (Circular (nodeKids h) r → ∀ (ar : Arith) m fuel, treeDist ar m h fuel r = none ∧ treeDistCopy ar h fuel r = none) ∧
      (¬ Circular (nodeKids h) r → ∃ n, ∀ (ar : Arith) m fuel, n ≤ fuel → (∃ out, treeDist ar m h fuel r = some out) ∧
        ∃ out, treeDistCopy ar h fuel r = some (.ok out))) := by
  have hcopy := C121_copy_ends_iff h hok r hr
  refine ⟨fun hp ar m fuel => ?_, fun hp => ⟨fun hc ar m fuel => ?_, fun hc => ?_⟩⟩
  · have := (hcopy.1 hp fuel).1
    unfold treeDist treeDistCopy
    rw [this]
    exact ⟨rfl, rfl⟩
  · have := ((hcopy.2 hp).2.2 hc fuel).1
    unfold treeDist treeDistCopy
    rw [this]
    exact ⟨rfl, rfl⟩
  · obtain ⟨t, rfl, h1, h2, h3⟩ := unfold_tree hok r hr hc
    refine ⟨2 * t.size + 1, fun ar m fuel hf => ?_⟩
    have hpos := t.size_pos
    constructor
    · obtain ⟨h', t1, e1, e2, e3, e4, e5, e6⟩ := C49_copy h t h1 h2 h3 hp fuel (by omega)
      have hsz := size_bare t t1 e3
      have hpost := walkPost_eq h' t1 e2.rep fuel (by omega)
      have hpre : walkPre h' fuel t1.ref = some t1.pre := by
        have := preLoop_eq h' fuel [t1] (by simpa using e2.rep) (by simp; omega)
        simpa [walkPre] using this
      unfold treeDist
      rw [e1]
      cases m with
      | none => exact ⟨_, rfl⟩
      | some m => simp only [hpost, hpre]; exact ⟨_, rfl⟩
    · obtain ⟨h', t', e1, _⟩ := C109_copy ar h t h1 h2 h3 hp fuel (by omega)
      exact ⟨_, e1⟩

/-! A node below two others, and a root that does not belong to the loop below it. -/

example : NodesOk (TreeOp.run [] [.new u!"a" [], .new u!"b" [], .new u!"c" [], .new u!"d" [], .add 0 1, .add 0 2, .add 1 3, .add 2 3]) :=
  C121_nodes_ok _ (by decide +kernel)

example : NodesOk (TreeOp.run [] [.new u!"a" [], .new u!"b" [], .add 0 1, .add 1 1]) ∧
    parentTruthy (TreeOp.run [] [.new u!"a" [], .new u!"b" [], .add 0 1, .add 1 1]) 0 = false ∧
    Circular (nodeKids (TreeOp.run [] [.new u!"a" [], .new u!"b" [], .add 0 1, .add 1 1])) 0 := by
  refine ⟨C121_nodes_ok _ (by decide +kernel), by decide +kernel, ?_⟩
  have hrun : TreeOp.run [] [.new u!"a" [], .new u!"b" [], .add 0 1, .add 1 1] =
      [⟨u!"a", [(u!"b", 1)], [], none⟩, ⟨u!"b", [(u!"b", 1)], [], some 1⟩] := by decide +kernel
  rw [hrun]
  exact ⟨[u!"b"], 1, [u!"b"], .step (by simp [nodeKids, Heap.node]) (.here 1), by simp, .step (by simp [nodeKids, Heap.node]) (.here 1)⟩

end Cjk
