import Mathlib.Analysis.LocallyConvex.Separation
import Mathlib.Topology.Algebra.Module.FiniteDimension
import Verif.Collide.CapsuleCapsule

/-!
# The separating axis theorem (C87)

A vector is a combination, with coefficients between -1 and 1, of given vectors (the generators) unless one of
the cross products of two generators tells it apart.  For the difference of two boxes the generators are the
half edges of both of them, and the cross products are the 15 axes `collide` for two boxes tries.

Nothing here models code.
-/

namespace Edyn.Collide

open Edyn.Math hiding lengthSqr_nonneg
open V3 Edyn.Geom

variable {ι : Type} [Fintype ι]

/-- `d` is a combination of the generators with coefficients between -1 and 1. -/
def InZono (g : ι → V3 ℝ) (d : V3 ℝ) : Prop :=
  ∃ t : ι → ℝ, (∀ k, |t k| ≤ 1) ∧
    d = ⟨∑ k, t k * (g k).x, ∑ k, t k * (g k).y, ∑ k, t k * (g k).z⟩

/-- A vector outside is told apart by some direction. -/
theorem zono_separated (g : ι → V3 ℝ) (d : V3 ℝ) (h : ¬ InZono g d) : ∃ n, ∑ k, |dot (g k) n| < dot d n := by
  let L : (ι → ℝ) →ₗ[ℝ] (ℝ × ℝ × ℝ) :=
    { toFun := fun t => (∑ k, t k * (g k).x, ∑ k, t k * (g k).y, ∑ k, t k * (g k).z)
      map_add' := by
        intro s t
        simp only [Pi.add_apply, add_mul, Finset.sum_add_distrib, Prod.mk_add_mk]
      map_smul' := by
        intro c t
        simp only [Pi.smul_apply, smul_eq_mul, mul_assoc, ← Finset.mul_sum, RingHom.id_apply, Prod.smul_mk] }
  have hcont : Continuous L := LinearMap.continuous_of_finiteDimensional L
  have hcomp : IsCompact (L '' (Set.Icc (fun _ => (-1 : ℝ)) (fun _ => 1))) := isCompact_Icc.image hcont
  have hconv : _root_.Convex ℝ (L '' (Set.Icc (fun _ => (-1 : ℝ)) (fun _ => 1))) := (convex_Icc _ _).linear_image L
  have hout : (d.x, d.y, d.z) ∉ L '' (Set.Icc (fun _ => (-1 : ℝ)) (fun _ => 1)) := by
    rintro ⟨t, ht, he⟩
    apply h
    refine ⟨t, fun k => abs_le.2 ⟨ht.1 k, ht.2 k⟩, ?_⟩
    have h1 : ∑ k, t k * (g k).x = d.x := congrArg (fun q => q.1) he
    have h2 : ∑ k, t k * (g k).y = d.y := congrArg (fun q => q.2.1) he
    have h3 : ∑ k, t k * (g k).z = d.z := congrArg (fun q => q.2.2) he
    rw [h1, h2, h3]
  obtain ⟨f, u, hu, hb⟩ := geometric_hahn_banach_point_closed hconv hcomp.isClosed hout
  set n : V3 ℝ := ⟨-f (1, 0, 0), -f (0, 1, 0), -f (0, 0, 1)⟩ with hn
  have hf : ∀ v : V3 ℝ, f (v.x, v.y, v.z) = - dot v n := by
    intro v
    have : ((v.x, v.y, v.z) : ℝ × ℝ × ℝ) = v.x • (1, 0, 0) + v.y • (0, 1, 0) + v.z • (0, 0, 1) := by
      simp
    rw [this, map_add, map_add, map_smul, map_smul, map_smul]
    simp only [hn, dot, smul_eq_mul]; ring
  refine ⟨n, ?_⟩
  have := hb (L (fun k => if 0 ≤ dot (g k) n then 1 else -1)) ⟨_, ⟨fun k => ?_, fun k => ?_⟩, rfl⟩
  · rw [hf] at hu
    have e : f (L (fun k => if 0 ≤ dot (g k) n then 1 else -1)) = - ∑ k, |dot (g k) n| := by
      have := hf ⟨∑ k, (if 0 ≤ dot (g k) n then (1 : ℝ) else -1) * (g k).x,
        ∑ k, (if 0 ≤ dot (g k) n then (1 : ℝ) else -1) * (g k).y,
        ∑ k, (if 0 ≤ dot (g k) n then (1 : ℝ) else -1) * (g k).z⟩
      refine this.trans ?_
      rw [dot, Finset.sum_mul, Finset.sum_mul, Finset.sum_mul, ← Finset.sum_add_distrib, ← Finset.sum_add_distrib]
      congr 1
      refine Finset.sum_congr rfl fun k _ => ?_
      split_ifs with hk
      · rw [abs_of_nonneg hk, dot]; ring
      · rw [abs_of_neg (not_le.1 hk), dot]; ring
    rw [e] at this
    linarith
  · dsimp only; split_ifs <;> norm_num
  · dsimp only; split_ifs <;> norm_num

/-- From `n` along `m` one reaches, before the sign of any of the products changes, a place where one of the
products that vary vanishes. -/
theorem walk (g : ι → V3 ℝ) (σ : ι → ℝ) (n m : V3 ℝ) (hσ : ∀ k, σ k = 1 ∨ σ k = -1)
    (hn : ∀ k, 0 ≤ σ k * dot (g k) n) (hm : ∃ k, dot (g k) m ≠ 0) :
    ∃ c : ℝ, (∀ k, 0 ≤ σ k * dot (g k) (n + smul c m)) ∧
      ∃ k, dot (g k) m ≠ 0 ∧ dot (g k) (n + smul c m) = 0 := by
  have dl : ∀ (v : V3 ℝ) (c : ℝ) (m : V3 ℝ), dot v (n + smul c m) = dot v n + c * dot v m := by
    intro v c m; simp only [dot, smul, V3.add_x, V3.add_y, V3.add_z]; ring
  -- the direction may be reversed so that one of the products decreases
  have key : ∀ m : V3 ℝ, (∃ k, σ k * dot (g k) m < 0) →
      ∃ c : ℝ, (∀ k, 0 ≤ σ k * dot (g k) (n + smul c m)) ∧
        ∃ k, dot (g k) m ≠ 0 ∧ dot (g k) (n + smul c m) = 0 := by
    rintro m ⟨k0, hk0⟩
    classical
    obtain ⟨k, hk, hmin⟩ := Finset.exists_min_image
      (Finset.univ.filter fun k => σ k * dot (g k) m < 0)
      (fun k => (σ k * dot (g k) n) / -(σ k * dot (g k) m)) ⟨k0, by simp [hk0]⟩
    have hk' : σ k * dot (g k) m < 0 := (Finset.mem_filter.1 hk).2
    set c := (σ k * dot (g k) n) / -(σ k * dot (g k) m) with hc
    have hc0 : 0 ≤ c := div_nonneg (hn k) (by linarith)
    have hce : c * (σ k * dot (g k) m) = - (σ k * dot (g k) n) := by
      rw [hc, div_mul_eq_mul_div, div_eq_iff (by linarith)]; ring
    refine ⟨c, fun l => ?_, k, ?_, ?_⟩
    · rw [dl, mul_add]
      by_cases hl : σ l * dot (g l) m < 0
      · have := hmin l (by simp [hl])
        have h2 : c * -(σ l * dot (g l) m) ≤ σ l * dot (g l) n := by
          rwa [le_div_iff₀ (by linarith)] at this
        nlinarith
      · have := mul_nonneg hc0 (not_lt.1 hl)
        have := hn l
        nlinarith
    · intro h0; rw [h0, mul_zero] at hk'; exact lt_irrefl _ hk'
    · have : σ k * (dot (g k) (n + smul c m)) = 0 := by rw [dl]; linear_combination hce
      rcases mul_eq_zero.1 this with h | h
      · rcases hσ k with h1 | h1 <;> rw [h1] at h <;> norm_num at h
      · exact h
  obtain ⟨k, hk⟩ := hm
  by_cases h : σ k * dot (g k) m < 0
  · exact key m ⟨k, h⟩
  · obtain ⟨c, h1, l, h2, h3⟩ := key (-m) ⟨k, by
      have hs : σ k * dot (g k) m ≠ 0 := by
        rcases hσ k with h1 | h1 <;> rw [h1] <;> simpa using hk
      have e : dot (g k) (-m) = - dot (g k) m := by simp only [dot, V3.neg_x, V3.neg_y, V3.neg_z]; ring
      rw [e]
      have := lt_of_le_of_ne (not_lt.1 h) (Ne.symm hs)
      linarith⟩
    have e : smul c (-m) = smul (-c) m := by
      ext <;> simp [smul]
    rw [e] at h1 h3
    refine ⟨-c, h1, l, fun h0 => h2 ?_, h3⟩
    have e : dot (g l) (-m) = - dot (g l) m := by simp only [dot, V3.neg_x, V3.neg_y, V3.neg_z]; ring
    rw [e, h0, neg_zero]

/-- Some vector other than zero is perpendicular to a given one. -/
theorem exists_perp (w : V3 ℝ) : ∃ m : V3 ℝ, m ≠ 0 ∧ dot w m = 0 := by
  by_cases h : w.x = 0 ∧ w.y = 0
  · refine ⟨⟨1, 0, 0⟩, fun h0 => ?_, ?_⟩
    · have := congrArg V3.x h0; norm_num at this
    · simp [dot, h.1]
  · refine ⟨⟨-w.y, w.x, 0⟩, fun h0 => h ⟨?_, ?_⟩, ?_⟩
    · exact congrArg V3.y h0
    · have := congrArg V3.x h0
      simpa using this
    · simp only [dot]; ring

/-- A vector perpendicular to two vectors that are not parallel is a multiple of their cross product. -/
theorem perp_two {a b n : V3 ℝ} (h : lengthSqr (cross a b) ≠ 0) (ha : dot a n = 0) (hb : dot b n = 0) :
    n = smul (dot (cross a b) n / lengthSqr (cross a b)) (cross a b) := by
  refine parallel_smul h ?_
  have e : cross (cross a b) n = smul (dot a n) b - smul (dot b n) a := by
    ext <;> simp only [cross, dot, smul, V3.sub_x, V3.sub_y, V3.sub_z] <;> ring
  rw [e, ha, hb]
  ext <;> simp [smul]

theorem lengthSqr_ne {v : V3 ℝ} (h : v ≠ 0) : lengthSqr v ≠ 0 := by
  intro h0
  apply h
  simp only [lengthSqr, dot] at h0
  have hx : v.x * v.x = 0 := by nlinarith [mul_self_nonneg v.x, mul_self_nonneg v.y, mul_self_nonneg v.z]
  have hy : v.y * v.y = 0 := by nlinarith [mul_self_nonneg v.x, mul_self_nonneg v.y, mul_self_nonneg v.z]
  have hz : v.z * v.z = 0 := by nlinarith [mul_self_nonneg v.x, mul_self_nonneg v.y, mul_self_nonneg v.z]
  ext
  · simpa using hx
  · simpa using hy
  · simpa using hz

/-- **Separating axes.** If no cross product of two generators tells a vector apart, it is a combination of the
generators with coefficients between -1 and 1. -/
theorem zono_axes (g : ι → V3 ℝ) (hspan : ∀ m, m ≠ 0 → ∃ k, dot (g k) m ≠ 0) (d : V3 ℝ)
    (h : ∀ i j, cross (g i) (g j) ≠ 0 → |dot d (cross (g i) (g j))| ≤ ∑ k, |dot (g k) (cross (g i) (g j))|) :
    InZono g d := by
  by_contra hno
  obtain ⟨n, hn⟩ := zono_separated g d hno
  set σ : ι → ℝ := fun k => if 0 ≤ dot (g k) n then 1 else -1 with hσdef
  have hσ : ∀ k, σ k = 1 ∨ σ k = -1 := by intro k; simp only [hσdef]; split_ifs <;> simp
  have habs : ∀ (k : ι) (v : V3 ℝ), 0 ≤ σ k * dot (g k) v → σ k * dot (g k) v = |dot (g k) v| := by
    intro k v hv
    rw [← abs_of_nonneg hv, abs_mul]
    rcases hσ k with h1 | h1 <;> rw [h1] <;> simp
  have hn0 : ∀ k, 0 ≤ σ k * dot (g k) n := by
    intro k; simp only [hσdef]; split_ifs with hk
    · linarith
    · linarith [not_le.1 hk]
  set w : V3 ℝ := ⟨d.x - ∑ k, σ k * (g k).x, d.y - ∑ k, σ k * (g k).y, d.z - ∑ k, σ k * (g k).z⟩ with hw
  have hwd : ∀ v, dot w v = dot d v - ∑ k, σ k * dot (g k) v := by
    intro v
    have e : ∑ k, σ k * dot (g k) v
        = (∑ k, σ k * (g k).x) * v.x + (∑ k, σ k * (g k).y) * v.y + (∑ k, σ k * (g k).z) * v.z := by
      rw [Finset.sum_mul, Finset.sum_mul, Finset.sum_mul, ← Finset.sum_add_distrib, ← Finset.sum_add_distrib]
      exact Finset.sum_congr rfl fun k _ => by rw [dot]; ring
    rw [e]; simp only [dot, hw]; ring
  have hsum : ∀ v, (∀ k, 0 ≤ σ k * dot (g k) v) → dot w v = dot d v - ∑ k, |dot (g k) v| := by
    intro v hv
    rw [hwd]; congr 1
    exact Finset.sum_congr rfl fun k _ => habs k v (hv k)
  have hpos : 0 < dot w n := by rw [hsum n hn0]; linarith
  have dl : ∀ (v n : V3 ℝ) (c : ℝ) (m : V3 ℝ), dot v (n + smul c m) = dot v n + c * dot v m := by
    intro v n c m; simp only [dot, smul, V3.add_x, V3.add_y, V3.add_z]; ring
  -- the first step
  obtain ⟨m, hm0, hmw⟩ := exists_perp w
  obtain ⟨c1, h1s, a, ham, ha⟩ := walk g σ n m hσ hn0 (hspan m hm0)
  set n1 := n + smul c1 m with hn1
  have hpos1 : 0 < dot w n1 := by rw [hn1, dl, hmw, mul_zero, add_zero]; exact hpos
  have hga : g a ≠ 0 := by
    intro h0; apply ham; rw [h0]; simp [dot]
  -- the second step
  have hm2 : cross (g a) w ≠ 0 := by
    intro h0
    have := parallel_smul (lengthSqr_ne hga) h0
    have e : dot w n1 = dot (g a) w / lengthSqr (g a) * dot (g a) n1 := by
      conv_lhs => rw [this]
      simp only [dot, smul]; ring
    rw [e, ha, mul_zero] at hpos1
    exact lt_irrefl _ hpos1
  obtain ⟨c2, h2s, b, hbm, hb⟩ := walk g σ n1 (cross (g a) w) hσ h1s (hspan _ hm2)
  set n2 := n1 + smul c2 (cross (g a) w) with hn2
  have hpos2 : 0 < dot w n2 := by
    rw [hn2, dl]
    have : dot w (cross (g a) w) = 0 := by simp only [dot, cross]; ring
    rw [this, mul_zero, add_zero]; exact hpos1
  have ha2 : dot (g a) n2 = 0 := by
    rw [hn2, dl, ha]
    have : dot (g a) (cross (g a) w) = 0 := by simp only [dot, cross]; ring
    rw [this, mul_zero, add_zero]
  have hab : cross (g a) (g b) ≠ 0 := by
    intro h0
    apply hbm
    have := parallel_smul (lengthSqr_ne hga) h0
    rw [this]; simp only [dot, smul, cross]; ring
  have hpar := perp_two (lengthSqr_ne hab) ha2 hb
  set γ := dot (cross (g a) (g b)) n2 / lengthSqr (cross (g a) (g b)) with hγ
  have hγ0 : γ ≠ 0 := by
    intro h0
    rw [h0] at hpar
    rw [hpar] at hpos2
    simp [dot, smul] at hpos2
  have hle := h a b hab
  have h2 := hsum n2 h2s
  have ds : ∀ v, dot v n2 = γ * dot v (cross (g a) (g b)) := by
    intro v; conv_lhs => rw [hpar]
    simp only [dot, smul]; ring
  have e : ∑ k, |dot (g k) n2| = |γ| * ∑ k, |dot (g k) (cross (g a) (g b))| := by
    rw [Finset.mul_sum]
    exact Finset.sum_congr rfl fun k _ => by rw [ds, abs_mul]
  have e2 : dot d n2 ≤ |γ| * |dot d (cross (g a) (g b))| := by
    rw [ds, ← abs_mul]; exact le_abs_self _
  have := mul_le_mul_of_nonneg_left hle (abs_nonneg γ)
  rw [h2, e] at hpos2
  linarith

/-- The condition is necessary for every direction. -/
theorem zono_dir (g : ι → V3 ℝ) (d v : V3 ℝ) (h : InZono g d) : |dot d v| ≤ ∑ k, |dot (g k) v| := by
  obtain ⟨t, ht, rfl⟩ := h
  have e : dot ⟨∑ k, t k * (g k).x, ∑ k, t k * (g k).y, ∑ k, t k * (g k).z⟩ v = ∑ k, t k * dot (g k) v := by
    rw [dot, Finset.sum_mul, Finset.sum_mul, Finset.sum_mul, ← Finset.sum_add_distrib, ← Finset.sum_add_distrib]
    exact Finset.sum_congr rfl fun k _ => by rw [dot]; ring
  rw [e]
  refine (Finset.abs_sum_le_sum_abs _ _).trans (Finset.sum_le_sum fun k _ => ?_)
  rw [abs_mul]
  calc |t k| * |dot (g k) v| ≤ 1 * |dot (g k) v| := mul_le_mul_of_nonneg_right (ht k) (abs_nonneg _)
    _ = _ := one_mul _

end Edyn.Collide
