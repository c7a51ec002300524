import Verif.Model.Zk.Msm
import Verif.Base.Rel
import Verif.Proofs.Zk.Msm
/-!
# Multi-scalar multiplication on representations of points

`msmVariableBase` uses the identity, the addition and the doubling of the points only, so on representations it
follows its run on the values they stand for.
-/

set_option linter.unusedSectionVars false

namespace Kzg.Zk.Msm
open Kzg Res

variable {G M : Type} [Zero G] [Add G] [AddCommGroup M] {R : G → M → Prop} {dbl : G → G} {lax : Prop}

theorem fillBuckets_rel (hadd : ∀ {p q a b}, R p a → R q b → R (p + q) (a + b)) (c w : Nat) :
    ∀ {v : List (Scalar × G)} {v' : List (Scalar × M)}, RelL (fun s t => s.1 = t.1 ∧ R s.2 t.2) v v' →
    ∀ {st : G × List G} {st' : M × List M}, R st.1 st'.1 → RelL R st.2 st'.2 →
    Rel lax (fun s t => R s.1 t.1 ∧ RelL R s.2 t.2) (fillBuckets c w v st) (fillBuckets c w v' st') := by
  intro v v' h
  induction h with
  | nil => intro st st' h1 h2; exact ⟨h1, h2⟩
  | @cons a b v v' hab _ ih =>
    intro st st' h1 h2
    obtain ⟨s, p⟩ := a
    obtain ⟨s', p'⟩ := b
    obtain ⟨res, bk⟩ := st
    obtain ⟨res', bk'⟩ := st'
    obtain ⟨rfl, hp⟩ := hab
    rw [fillBuckets, fillBuckets]
    dsimp only at hp h1 h2 ⊢
    refine Rel.ite (ih h1 h2) (Rel.ite (Rel.ite (ih (hadd h1 hp) h2) (ih h1 h2)) (Rel.ite ?_ (ih h1 h2)))
    refine Rel.bind (rel_rd h2 _) fun x x' hx => ?_
    exact Rel.bind (rel_wr h2 _ (hadd hx hp)) fun y y' hy => ih h1 hy

theorem sumFold_rel (hadd : ∀ {p q a b}, R p a → R q b → R (p + q) (a + b)) :
    ∀ {v : List G} {v' : List M}, RelL R v v' → ∀ {st : G × G} {st' : M × M}, R st.1 st'.1 → R st.2 st'.2 →
    R (v.foldl sumStep st).2 (v'.foldl sumStep st').2 := by
  intro v v' h
  induction h with
  | nil => intro st st' _ h2; exact h2
  | cons hab _ ih => intro st st' h1 h2; exact ih (hadd h1 hab) (hadd h2 (hadd h1 hab))

theorem zip_rel {v : List G} {v' : List M} (h : RelL R v v') : ∀ s : List Scalar,
    RelL (fun s t => s.1 = t.1 ∧ R s.2 t.2) (s.zip v) (s.zip v') := by
  induction h with
  | nil => intro s; rw [List.zip_nil_right, List.zip_nil_right]; exact .nil
  | cons hab _ ih =>
    intro s
    cases s with
    | nil => exact .nil
    | cons a s => exact .cons ⟨rfl, hab⟩ (ih s)

theorem windowSum_rel (h0 : R 0 0) (hadd : ∀ {p q a b}, R p a → R q b → R (p + q) (a + b)) (c : Nat) {v : List G}
    {v' : List M} (h : RelL R v v') (s : List Scalar) (w : Nat) :
    Rel lax R (windowSum c v s w) (windowSum c v' s w) := by
  unfold windowSum
  refine Rel.bind (fillBuckets_rel hadd c w (zip_rel h s) h0 (RelL.replicate _ h0)) fun a b hab => ?_
  exact sumFold_rel hadd hab.2.reverse h0 hab.1

theorem windowSums_rel (h0 : R 0 0) (hadd : ∀ {p q a b}, R p a → R q b → R (p + q) (a + b)) (c : Nat) {v : List G}
    {v' : List M} (h : RelL R v v') (s : List Scalar) (ws : List Nat) :
    Rel lax (RelL R) (windowSums c v s ws) (windowSums c v' s ws) := by
  induction ws with
  | nil => exact RelL.nil
  | cons w ws ih =>
    refine Rel.bind (windowSum_rel h0 hadd c h s w) fun a b hab => ?_
    exact Rel.bind ih fun x y hxy => RelL.cons hab hxy

theorem doubles_rel (hdbl : ∀ {p a}, R p a → R (dbl p) (a + a)) : ∀ (n : Nat) {p : G} {a : M}, R p a →
    R (doubles dbl n p) (doubles (fun t => t + t) n a)
  | 0, _, _, h => h
  | n + 1, _, _, h => doubles_rel hdbl n (hdbl h)

theorem totalFold_rel (hadd : ∀ {p q a b}, R p a → R q b → R (p + q) (a + b))
    (hdbl : ∀ {p a}, R p a → R (dbl p) (a + a)) (c : Nat) :
    ∀ {v : List G} {v' : List M}, RelL R v v' → ∀ {t : G} {t' : M}, R t t' →
    R (v.foldl (fun total s => doubles dbl c (total + s)) t)
      (v'.foldl (fun total s => doubles (fun t => t + t) c (total + s)) t') := by
  intro v v' h
  induction h with
  | nil => intro t t' ht; exact ht
  | cons hab _ ih => intro t t' ht; exact ih (doubles_rel hdbl c (hadd ht hab))

/-- The bucket method on representations returns a representation of the linear combination. -/
theorem msmVariableBase_rel (h0 : R 0 0) (hadd : ∀ {p q a b}, R p a → R q b → R (p + q) (a + b))
    (hdbl : ∀ {p a}, R p a → R (dbl p) (a + a)) {v : List G} {v' : List M} (h : RelL R v v') (s : List Scalar) :
    Rel lax R (msmVariableBase dbl v s) (msmVariableBase (fun t => t + t) v' s) := by
  unfold msmVariableBase
  refine Rel.bind (windowSums_rel h0 hadd _ h s _) fun a b hab => ?_
  refine Rel.bind (rel_rd hab 0) fun x x' hx => ?_
  refine Rel.bind (rel_sliceFrom hab 1) fun y y' hy => ?_
  exact hadd (totalFold_rel hadd hdbl _ hy.reverse h0) hx

end Kzg.Zk.Msm
