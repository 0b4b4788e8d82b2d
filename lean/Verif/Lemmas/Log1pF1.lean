import Verif.Lemmas.Log1p5
import Verif.Lemmas.SinCosF4

/-!
# log1p of float: the kernel, evaluated in double
-/

namespace Verif
open Fmt Real

/-- the polynomial of the float kernel -/
noncomputable def l1pQ (Z : ℝ) : ℝ :=
  Z * (6004799682117632 / 2 ^ 53 + Z * Z * (5146971232796672 / 2 ^ 54)) + Z * Z * (7205759511166976 / 2 ^ 54 + Z * Z * (8736983534796800 / 2 ^ 55))

theorem l1pQ_near {Z : ℝ} (h0 : 0 ≤ Z) (h1 : Z ≤ 2959 / 100000) :
    |l1pQ Z - (2 / 3 * Z + 2 / 5 * Z ^ 2 + 2 / 7 * Z ^ 3 + 2 / 9 * Z ^ 4 + 2 / 11 * Z ^ 5 + 2 / 13 * Z ^ 6 + 2 / 15 * Z ^ 7)| ≤ 165 / 10 ^ 10 := by
  have p : ∀ k : ℕ, 0 ≤ Z ^ (k + 1) ∧ Z ^ (k + 1) ≤ (2959 / 100000) ^ (k + 1) := fun k => ⟨by positivity, pow_le_pow_left₀ h0 h1 _⟩
  have p2 := p 1
  have p3 := p 2
  have p4 := p 3
  have p5 := p 4
  have p6 := p 5
  have p7 := p 6
  unfold l1pQ
  norm_num at p2 p3 p4 p5 p6 p7
  rw [abs_le]
  constructor <;> ring_nf <;> linarith [p2.1, p2.2, p3.1, p3.2, p4.1, p4.2, p5.1, p5.2, p6.1, p6.2, p7.1, p7.2]

theorem l1pQ_log {F S : ℝ} (hS : S = F / (2 + F)) (h : -1 < F) (hs : |S| ≤ 172 / 1000) :
    |F - F * F / 2 + S * (F * F / 2 + l1pQ (S * S)) - log (1 + F)| ≤ |S| * (1651 / 10 ^ 11) := by
  have h2 : 0 < 2 + F := by linarith
  have t := atanh_tail (s := S) (by linarith) 8
  have hz : S * S ≤ 2959 / 100000 := by rw [← abs_mul_abs_self]; nlinarith [abs_nonneg S]
  have n := l1pQ_near (mul_self_nonneg S) hz
  rw [hS, log1p_atanh h, ← hS] at t
  have e : F - F * F / 2 + S * (F * F / 2 + l1pQ (S * S)) - log (1 + F) =
      S * (l1pQ (S * S) - (2 / 3 * (S * S) + 2 / 5 * (S * S) ^ 2 + 2 / 7 * (S * S) ^ 3 + 2 / 9 * (S * S) ^ 4 + 2 / 11 * (S * S) ^ 5 + 2 / 13 * (S * S) ^ 6 + 2 / 15 * (S * S) ^ 7))
       - (log (1 + F) - ∑ k ∈ Finset.range 8, 2 * (1 / (2 * (k : ℝ) + 1)) * S ^ (2 * k + 1)) := by
    have e1 : F - F * F / 2 + S * (F * F / 2) = 2 * S := by rw [hS]; field_simp; ring
    simp only [Finset.sum_range_succ, Finset.sum_range_zero]
    push_cast
    linear_combination e1
  rw [e]
  have t2 : 2 / (2 * ((8 : ℕ) : ℝ) + 1) * |S| ^ (2 * 8 + 1) / (1 - S ^ 2) ≤ |S| * (1 / 10 ^ 12) := by
    have hz' : S ^ 2 ≤ 2959 / 100000 := by rw [sq]; exact hz
    rw [div_le_iff₀ (by linarith), show |S| ^ (2 * 8 + 1) = |S| * |S| ^ 16 by ring]
    have p16 : |S| ^ 16 ≤ (172 / 1000) ^ 16 := pow_le_pow_left₀ (abs_nonneg _) hs 16
    have k1 := mul_le_mul_of_nonneg_left p16 (abs_nonneg S)
    have k2 := mul_le_mul_of_nonneg_left (show 9 / 10 ≤ 1 - S ^ 2 by linarith) (abs_nonneg S)
    push_cast
    norm_num at *
    linarith [abs_nonneg S]
  refine (abs_sub _ _).trans ((add_le_add (b := |S| * (165 / 10 ^ 10)) ?_ (t.trans t2)).trans ?_)
  · rw [abs_mul]; exact mul_le_mul_of_nonneg_left n (abs_nonneg _)
  · have := abs_nonneg S
    norm_num; linarith

/-- the double result of the float kernel before the last conversion -/
def log1pKerfD (md : Mode) (k : ℤ) (f c : ℕ) : ℕ :=
  let mul := binary64.hmul md
  let add := binary64.hadd md
  let s := binary64.hdiv md f (add 0x4000000000000000 f)
  let z := mul s s
  let w := mul z z
  let t1 := mul w (add CC.l1pF2 (mul w CC.l1pF4))
  let t2 := mul z (add CC.l1pF1 (mul w CC.l1pF3))
  let r := add t2 t1
  let hfsq := mul (mul 0x3FE0000000000000 f) f
  let dk := binary64.ofInt md k
  add (add (binary64.hsub md (add (mul s (add hfsq r)) (add (mul dk CC.l1pFlo) c)) hfsq) f) (mul dk CC.l1pFhi)

theorem log1pKernelf_eq (md : Mode) (k : ℤ) (f c : ℕ) : CC.log1pKernelf md k f c = binary32.hcvt binary64 md (log1pKerfD md k f c) := rfl

/-- the kernel in double: absolute error relative to `a = |F|`, whatever the correction `D` and the multiple `k` of `ln2` -/
theorem l1pf_kernel (md : Mode) {f c : ℕ} (hf : binary64.Finite f) {F a D K : ℝ} {k : ℤ} (hF : binary64.val f = F) (ha : |F| = a) (h0 : 1 / 2 ^ 60 ≤ a) (h1 : -(29290 / 100000) ≤ F) (h2 : F ≤ 41429 / 100000)
    (Al : Ap md (binary64.hadd md (binary64.hmul md (binary64.ofInt md k) CC.l1pFlo) c) D (a / 100) (a / 100))
    (Ak : Ap md (binary64.hmul md (binary64.ofInt md k) CC.l1pFhi) K (4 * a) 0) :
    let S := F / (2 + F)
    binary64.Finite (log1pKerfD md k f c) ∧ |binary64.val (log1pKerfD md k f c) - (F - F * F / 2 + S * (F * F / 2 + l1pQ (S * S)) + D + K)| ≤ a / 2 ^ 40 := by
  have hu2 := ru_le md
  obtain ⟨As, hs⟩ := l1p_s md hf hF ha h0 h1 h2
  have ha4 : a ≤ 41429 / 100000 := by rw [← ha, abs_le]; constructor <;> linarith
  obtain ⟨fh, vh⟩ := fval_half64
  have Af : Ap md f F a 0 := Ap.ofVal hf hF ha.le
  dsimp only
  unfold log1pKerfD
  dsimp only
  generalize binary64.hdiv md f (binary64.hadd md 0x4000000000000000 f) = s at *
  generalize hSdef : F / (2 + F) = S at *
  generalize binary64.hadd md (binary64.hmul md (binary64.ofInt md k) CC.l1pFlo) c = l at *
  generalize binary64.hmul md (binary64.ofInt md k) CC.l1pFhi = kh at *
  norm_num at h0
  have Asc : Ap md s S (172 / 1000) (49 / 100) := ⟨As.1, (As.mono le_rfl (show _ ≤ (49 / 100 : ℝ) by linarith)).2.1, hs⟩
  have Ahalf : Ap md 0x3FE0000000000000 (1 / 2) (1 / 2) 0 := Ap.ofVal fh vh (by norm_num)
  have Afc : Ap md f F (41429 / 100000) 0 := Af.mono ha4 le_rfl
  have Ah := Ahalf.mul Af (B := a / 2) (e := a) (by linarith) (by norm_num; linarith) (by norm_num; linarith)
  have Aq := Ah.mul Afc (B := 20715 / 100000 * a) (e := a) (by linarith) (by norm_num; linarith) (by norm_num; linarith)
  have Aqc : Ap md _ _ (859 / 10000) (1 / 2) := Aq.mono (by linarith) (by linarith)
  generalize binary64.hmul md (binary64.hmul md 0x3FE0000000000000 f) f = q at *
  obtain ⟨f1, v1⟩ := val_l1pF1
  obtain ⟨f2', v2⟩ := val_l1pF2
  obtain ⟨f3, v3⟩ := val_l1pF3
  obtain ⟨f4, v4⟩ := val_l1pF4
  have A1 : Ap md CC.l1pF1 _ (667 / 1000) 0 := Ap.ofVal f1 v1 (by rw [abs_le]; constructor <;> norm_num)
  have A2 : Ap md CC.l1pF2 _ (401 / 1000) 0 := Ap.ofVal f2' v2 (by rw [abs_le]; constructor <;> norm_num)
  have A3 : Ap md CC.l1pF3 _ (286 / 1000) 0 := Ap.ofVal f3 v3 (by rw [abs_le]; constructor <;> norm_num)
  have A4 : Ap md CC.l1pF4 _ (243 / 1000) 0 := Ap.ofVal f4 v4 (by rw [abs_le]; constructor <;> norm_num)
  have Az := Asc.mul Asc (B := 29584 / 1000000) (e := 2 / 10) (by norm_num) (by norm_num) (by norm_num)
  have Aw := Az.mul Az (B := 876 / 1000000) (e := 2 / 100) (by norm_num) (by norm_num) (by norm_num)
  generalize binary64.hmul md s s = z at *
  generalize binary64.hmul md z z = w at *
  have B4 := Aw.mul A4 (B := 1 / 1000) (e := 1 / 10) (by norm_num) (by norm_num) (by norm_num)
  have C2 := A2.add B4 (S := 41 / 100) (B := 41 / 100) (e := 1) ((abs_add_le' A2.bd B4.bd).trans (by norm_num)) le_rfl (by norm_num) (by norm_num)
  have T1 := Aw.mul C2 (B := 1 / 1000) (e := 1 / 10) (by norm_num) (by norm_num) (by norm_num)
  have B3 := Aw.mul A3 (B := 3 / 10000) (e := 1 / 10) (by norm_num) (by norm_num) (by norm_num)
  have C1 := A1.add B3 (S := 668 / 1000) (B := 668 / 1000) (e := 1) ((abs_add_le' A1.bd B3.bd).trans (by norm_num)) le_rfl (by norm_num) (by norm_num)
  have T2 := Az.mul C1 (B := 2 / 100) (e := 3 / 10) (by norm_num) (by norm_num) (by norm_num)
  have Ar := T2.add T1 (S := 3 / 100) (B := 3 / 100) (e := 1) ((abs_add_le' T2.bd T1.bd).trans (by norm_num)) le_rfl (by norm_num) (by norm_num)
  have Am := Aqc.add Ar (S := 12 / 100) (B := 12 / 100) (e := 2) ((abs_add_le' Aqc.bd Ar.bd).trans (by norm_num)) le_rfl (by norm_num) (by norm_num)
  have Ax := As.mul Am (B := 1 / 10 * a) (e := 2 * a) (by linarith) (by norm_num; linarith) (by norm_num; linarith)
  have D1 := Ax.add Al (S := 11 / 100 * a) (B := 11 / 100 * a) (e := 3 * a) ((abs_add_le' Ax.bd Al.bd).trans (by norm_num; linarith)) le_rfl (by norm_num; linarith) (by norm_num; linarith)
  have D2 := D1.sub Aq (S := a) (B := a) (e := 6 * a) ((abs_sub _ _).trans ((add_le_add D1.bd Aq.bd).trans (by norm_num; linarith))) le_rfl (by norm_num; linarith) (by norm_num; linarith)
  have D3 := D2.add Af (S := 2 * a) (B := 2 * a) (e := 9 * a) ((abs_add_le' D2.bd Af.bd).trans (by norm_num; linarith)) le_rfl (by norm_num; linarith) (by norm_num; linarith)
  have D4 := D3.add Ak (S := 6 * a) (B := 6 * a) (e := 16 * a) ((abs_add_le' D3.bd Ak.bd).trans (by norm_num; linarith)) le_rfl (by norm_num; linarith) (by norm_num; linarith)
  refine ⟨D4.1, ?_⟩
  have e := D4.err
  have hb := mul_le_mul_of_nonneg_right hu2 (show 0 ≤ 16 * a by linarith)
  clear D1 D2 D3 D4 Ax Am Ar T2 C1 B3 T1 C2 B4 Aw Az
  refine le_trans (le_of_eq ?_) (e.trans (hb.trans (by norm_num; linarith)))
  congr 2
  unfold l1pQ
  ring

end Verif
