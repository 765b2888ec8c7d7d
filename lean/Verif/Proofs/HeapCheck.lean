import Verif.Model.HeapCheck
import Verif.Proofs.HeapMain

/-
The memory used by check_cert.
-/

namespace Spasm
namespace Heap

theorem raw_malloc_tr : Tr 1 raw_malloc (fun q => arr q) := by
  unfold raw_malloc
  refine Tr.flipT.bind fun b => Tr.iteT (fun _ => ?_) fun _ => malloc_arr_tr
  exact Tr.ret SL.Le.rfl

theorem certificate_load_tr (P i₀ j₀ x₀ y₀ : Ptr) : Tr (cell P (.cert i₀ j₀ x₀ y₀)) (certificate_load P true)
    (fun _ => CertS P) := by
  show Tr _ (getCert P >>= _) _
  refine Tr.bind (getCert_tr P i₀ j₀ x₀ y₀) fun v => ?_
  refine Tr.pureI fun hv => ?_
  subst hv
  refine Tr.step raw_malloc_tr fun i => ?_
  refine Tr.step (store_cell_tr P (.cert i₀ j₀ x₀ y₀) _) fun _ => ?_
  refine Tr.step raw_malloc_tr fun j => ?_
  refine Tr.step (store_cell_tr P (.cert i j₀ x₀ y₀) _) fun _ => ?_
  refine Tr.step raw_malloc_tr fun x => ?_
  refine Tr.step (store_cell_tr P (.cert i j x₀ y₀) _) fun _ => ?_
  refine Tr.step raw_malloc_tr fun y => ?_
  refine Tr.step (store_cell_tr P (.cert i j x y₀) _) fun _ => ?_
  refine (Tr.maybeT (Tr.maybeT ?_)).post fun _ => SL.Le.trans ?_ (CertS.intro P i j x y)
  · hstep
    hstep
    hstep
    exact use_tr
  · sl_ac

theorem main_check_cert_tr (i₀ j₀ x₀ y₀ : Ptr) : Tr 1 (main_check_cert true i₀ j₀ x₀ y₀)
    (fun _ => SL.ex fun v : Ptr × Ptr × Ptr × Ptr × Ptr =>
      CsrS v.1 * (arr v.2.1 * (arr v.2.2.1 * (arr v.2.2.2.1 * arr v.2.2.2.2)))) := by
  unfold main_check_cert
  refine Tr.step (load_matrix_tr true) fun A => ?_
  refine Tr.step (malloc_tr _) fun P => ?_
  refine Tr.step (certificate_load_tr P i₀ j₀ x₀ y₀) fun _ => ?_
  refine Tr.exE (P₀ := fun v : Ptr × Ptr × Ptr × Ptr => certO P v.1 v.2.1 v.2.2.1 v.2.2.2)
    (e := (inferInstance : Ext (CertS P) _ _)) fun v => ?_
  obtain ⟨i, j, x, y⟩ := v
  refine Tr.read (certificate_rank_verify_tr (K := fun _ _ _ => True) A P i j x y) fun _ => ?_
  refine (Tr.last (free_cell_tr P (.cert i j x y)) fun _ => SL.Le.rfl).post fun _ => ?_
  exact SL.Le.trans (by sl_ac) (SL.Le.ex (A, i, j, x, y) SL.Le.rfl)

end Heap
end Spasm
