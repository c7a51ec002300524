import Mathlib.NumberTheory.LucasPrimality
import Mathlib.Tactic.NormNum.Prime
import Mathlib.FieldTheory.Finite.Basic
import Verif.Proofs.PowMod
import Verif.Spec.ZkFp
/-!
# The size of the base field is prime

A chain of certificates: Lucas for the two small primes, Pocklington (one large prime factor of
`n - 1`) above. The modular powers are evaluated by the kernel.
-/

namespace Kzg.Zk

theorem lucas_of_factors {n a fuel : Nat} (fs : List Nat) (hn : 1 < n) (hf : n ≤ 2 ^ fuel)
    (hfs : ∀ q ∈ fs, q.Prime) (hprod : fs.prod = n - 1) (h1 : powMod n fuel a (n - 1) 1 = 1)
    (h2 : ∀ q ∈ fs, powMod n fuel a ((n - 1) / q) 1 % n ≠ 1) : n.Prime := by
  refine lucas_primality n ((a : Nat) : ZMod n) ?_ ?_
  · rw [zmod_pow_eq (fuel := fuel) (by omega) h1]
    simp
  · intro q hq hd h
    have hm : q ∈ fs := by
      rw [← hprod, (Nat.prime_iff.mp hq).dvd_prod_iff] at hd
      obtain ⟨x, hx, hqx⟩ := hd
      rw [(Nat.prime_dvd_prime_iff_eq hq (hfs x hx)).mp hqx]
      exact hx
    have hle : (n - 1) / q ≤ n - 1 := Nat.div_le_self _ _
    rw [zmod_pow_eq (fuel := fuel) (by omega) rfl, show (1 : ZMod n) = ((1 : Nat) : ZMod n) by simp,
      ZMod.natCast_eq_natCast_iff', Nat.mod_eq_of_lt hn] at h
    exact h2 q hm h

theorem pocklington {n q a fuel c d : Nat} (hn : 1 < n) (hf : n ≤ 2 ^ fuel) (hq : q.Prime) (hdvd : q ∣ n - 1)
    (hbig : n < q * q) (h1 : powMod n fuel a (n - 1) 1 = 1)
    (hc : powMod n fuel a ((n - 1) / q) 1 = c + 1) (hd : c * d % n = 1) : n.Prime := by
  by_contra hnp
  have hl : n.minFac.Prime := Nat.minFac_prime (by omega)
  have hln : n.minFac ∣ n := Nat.minFac_dvd n
  have hsq : n.minFac ^ 2 ≤ n := Nat.minFac_sq_le_self (by omega) hnp
  generalize n.minFac = l at *
  have : Fact l.Prime := ⟨hl⟩
  have cast : ∀ {x y : Nat}, (x : ZMod n) = (y : ZMod n) → (x : ZMod l) = (y : ZMod l) := by
    intro x y h
    rw [ZMod.natCast_eq_natCast_iff] at h ⊢
    exact h.of_dvd hln
  have e1 : (a : ZMod l) ^ (n - 1) = 1 := by
    have := zmod_pow_eq (m := n) (fuel := fuel) (by omega) h1
    rw [← Nat.cast_pow] at this
    have := cast this
    simpa using this
  have hle : (n - 1) / q ≤ n - 1 := Nat.div_le_self _ _
  have e2 : (a : ZMod l) ^ ((n - 1) / q) ≠ 1 := by
    intro h
    have h3 := zmod_pow_eq (m := n) (fuel := fuel) (by omega) hc
    rw [← Nat.cast_pow] at h3
    have h4 := cast h3
    rw [Nat.cast_pow, h] at h4
    have hc0 : (c : ZMod l) = 0 := by
      have : (1 : ZMod l) = (c : ZMod l) + 1 := by simpa using h4
      exact (add_eq_right.mp this.symm)
    have h5 : ((c * d : Nat) : ZMod n) = ((1 : Nat) : ZMod n) := by
      rw [ZMod.natCast_eq_natCast_iff', hd, Nat.mod_eq_of_lt hn]
    have h6 := cast h5
    rw [Nat.cast_mul, hc0, zero_mul] at h6
    simp at h6
  have ha : (a : ZMod l) ≠ 0 := by
    intro h
    rw [h, zero_pow (by omega)] at e1
    exact zero_ne_one e1
  have o1 : orderOf (a : ZMod l) ∣ n - 1 := orderOf_dvd_of_pow_eq_one e1
  have o2 : ¬ orderOf (a : ZMod l) ∣ (n - 1) / q := fun h => e2 (orderOf_dvd_iff_pow_eq_one.mp h)
  have o3 : orderOf (a : ZMod l) ∣ l - 1 := orderOf_dvd_of_pow_eq_one (ZMod.pow_card_sub_one_eq_one ha)
  have hqo : q ∣ orderOf (a : ZMod l) := by
    by_contra h
    have hco : Nat.Coprime (orderOf (a : ZMod l)) q := ((Nat.Prime.coprime_iff_not_dvd hq).mpr h).symm
    apply o2
    apply hco.dvd_of_dvd_mul_right
    rw [Nat.div_mul_cancel hdvd]
    exact o1
  have hl1 : 0 < l - 1 := by have := hl.two_le; omega
  have hql : q ≤ l - 1 := Nat.le_of_dvd hl1 (hqo.trans o3)
  have : q * q ≤ l * l := Nat.mul_le_mul (by omega) (by omega)
  rw [pow_two] at hsq
  omega

theorem prime_34 : Nat.Prime 13090036741 := by
  refine lucas_of_factors (a := 10) (fuel := 34) [2, 2, 3, 5, 11, 47, 421987] (by norm_num) (by norm_num) ?_
    (by norm_num) (by decide +kernel) (by decide +kernel)
  simp only [List.mem_cons, List.not_mem_nil, or_false]
  rintro q (rfl | rfl | rfl | rfl | rfl | rfl | rfl) <;> norm_num

theorem prime_72 : Nat.Prime 3819663927398918131021 := by
  refine lucas_of_factors (a := 6) (fuel := 72) [2, 2, 3, 3, 5, 19, 113, 755057, 13090036741] (by norm_num)
    (by norm_num) ?_ (by norm_num) (by decide +kernel) (by decide +kernel)
  simp only [List.mem_cons, List.not_mem_nil, or_false]
  rintro q (rfl | rfl | rfl | rfl | rfl | rfl | rfl | rfl | rfl)
  all_goals first | exact prime_34 | norm_num

theorem prime_120 : Nat.Prime 1125266252156850182658904441386709967 :=
  pocklington (a := 2) (fuel := 120)
    (c := 569094264676275985966734733593272494)
    (d := 363966040104148855705611644974454555)
    (by decide +kernel) (by decide +kernel) prime_72 (by decide +kernel) (by decide +kernel)
    (by decide +kernel) (by decide +kernel) (by decide +kernel)

theorem prime_234 : Nat.Prime 15778400344354997994418419698270088123916926905054652752758194827714659 :=
  pocklington (a := 2) (fuel := 234)
    (c := 584602478677671312863650330581164049005241475155695537731613712292484)
    (d := 8254959361366692087094521958599552736149856986728481575631050697403242)
    (by decide +kernel) (by decide +kernel) prime_120 (by decide +kernel) (by decide +kernel)
    (by decide +kernel) (by decide +kernel) (by decide +kernel)

theorem fpModulus_prime : Nat.Prime fpModulus :=
  pocklington (a := 2) (fuel := 381)
    (c := 3857652229587791131170562170362777322661165158253241750951056708149380781976590789690115968560841332125271833377493)
    (d := 2187498333999863193215640476378758310847690922566267545269384146546613166935166697200060931464500123887301765890575)
    (by decide +kernel) (by decide +kernel) prime_234 (by decide +kernel) (by decide +kernel)
    (by decide +kernel) (by decide +kernel) (by decide +kernel)

instance : Fact fpModulus.Prime := ⟨fpModulus_prime⟩

end Kzg.Zk
