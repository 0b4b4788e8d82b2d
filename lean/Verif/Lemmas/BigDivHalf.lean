import Verif.Lemmas.IntLiterals

/-! Division by `x * 2^e` with `x` of half a word -/

namespace Verif
namespace BI

theorem mul_add_lt {r x d b : ℕ} (hr : r < x) (hd : d < b) : r * b + d < x * b := by
  have := Nat.mul_le_mul_right b hr
  rw [Nat.succ_mul] at this
  omega

theorem half_step {h r d x : ℕ} (hr : r < x) (hx : x < 2 ^ h) (hd : d < 2 ^ h) :
    ((r <<< h) % 2 ^ (2 * h) + d) % 2 ^ (2 * h) = r * 2 ^ h + d ∧ (r * 2 ^ h + d) / x < 2 ^ h ∧ (r * 2 ^ h + d) < 2 ^ (2 * h) := by
  have hp : 1 ≤ 2 ^ h := Nat.two_pow_pos h
  have e : 2 ^ (2 * h) = 2 ^ h * 2 ^ h := by rw [two_mul, pow_add]
  have h1 : r * 2 ^ h + d < x * 2 ^ h := mul_add_lt hr hd
  have h2 : x * 2 ^ h ≤ 2 ^ h * 2 ^ h := Nat.mul_le_mul_right _ hx.le
  refine ⟨?_, (Nat.div_lt_iff_lt_mul (by omega)).2 (by rw [mul_comm (2 ^ h)]; exact h1), by rw [e]; omega⟩
  rw [Nat.shiftLeft_eq, Nat.mod_eq_of_lt (a := r * 2 ^ h) (by rw [e]; omega), Nat.mod_eq_of_lt (by rw [e]; omega)]

theorem halves {h v : ℕ} (hv : v < 2 ^ (2 * h)) : v >>> h < 2 ^ h ∧ v &&& (2 ^ h - 1) < 2 ^ h ∧ (v >>> h) * 2 ^ h + (v &&& (2 ^ h - 1)) = v := by
  rw [Nat.shiftRight_eq_div_pow, Nat.and_two_pow_sub_one_eq_mod]
  refine ⟨Nat.div_lt_of_lt_mul (by rwa [← pow_add, ← two_mul]), Nat.mod_lt _ (Nat.two_pow_pos h), Nat.div_add_mod' v (2 ^ h)⟩

theorem halfDivLoop_spec {h x : ℕ} (hx0 : 1 ≤ x) (hx : x < 2 ^ h) : ∀ (l : List ℕ) (rem : ℕ), Words (2 * h) l → rem < x →
    Words (2 * h) (halfDivLoop (2 * h) x l rem).1 ∧ (halfDivLoop (2 * h) x l rem).1.length = l.length ∧ (halfDivLoop (2 * h) x l rem).2 < x ∧
      rem * 2 ^ (2 * h * l.length) + nat (2 * h) l.reverse = x * nat (2 * h) (halfDivLoop (2 * h) x l rem).1.reverse + (halfDivLoop (2 * h) x l rem).2
  | [], rem, _, hr => ⟨words_nil _, rfl, hr, by simp [halfDivLoop]⟩
  | v :: vs, rem, hl, hr => by
    obtain ⟨v1, v2, v3⟩ := halves hl.head
    have hsh : (2 * h) >>> 1 = h := by rw [Nat.shiftRight_eq_div_pow]; omega
    obtain ⟨a1, a2, _⟩ := half_step hr hx v1
    have b0 : (rem * 2 ^ h + v >>> h) % x < x := Nat.mod_lt _ (by omega)
    obtain ⟨b1, b2, _⟩ := half_step b0 hx v2
    rw [halfDivLoop]
    simp only [hsh, a1, b1]
    generalize hq : (rem * 2 ^ h + v >>> h) / x = q at a2 ⊢
    generalize hr1 : (rem * 2 ^ h + v >>> h) % x = r1 at b0 b1 b2 ⊢
    have c1 : x * q + r1 = rem * 2 ^ h + v >>> h := by rw [← hq, ← hr1]; exact Nat.div_add_mod _ _
    generalize hq2 : (r1 * 2 ^ h + (v &&& (2 ^ h - 1))) / x = q2 at b2 ⊢
    generalize hr2 : (r1 * 2 ^ h + (v &&& (2 ^ h - 1))) % x = r2
    have c2 : x * q2 + r2 = r1 * 2 ^ h + (v &&& (2 ^ h - 1)) := by rw [← hq2, ← hr2]; exact Nat.div_add_mod _ _
    have hr2x : r2 < x := by rw [← hr2]; exact Nat.mod_lt _ (by omega)
    have e : 2 ^ (2 * h) = 2 ^ h * 2 ^ h := by rw [two_mul, pow_add]
    have hqw : q * 2 ^ h + q2 < 2 ^ (2 * h) := by rw [e]; exact mul_add_lt a2 b2
    rw [Nat.shiftLeft_eq, Nat.mod_eq_of_lt (a := q * 2 ^ h) (by omega), Nat.mod_eq_of_lt hqw]
    obtain ⟨i1, i2, i3, i4⟩ := halfDivLoop_spec hx0 hx vs r2 hl.tail hr2x
    refine ⟨words_cons hqw i1, by simp [i2], i3, ?_⟩
    simp only [List.reverse_cons]
    rw [nat_snoc, nat_snoc, List.length_reverse, List.length_reverse, i2, List.length_cons, Nat.mul_succ, pow_add, e]
    generalize 2 ^ (2 * h * vs.length) = P at i4 ⊢
    generalize nat (2 * h) vs.reverse = V at i4 ⊢
    generalize nat (2 * h) (halfDivLoop (2 * h) x vs r2).1.reverse = Q at i4 ⊢
    generalize (halfDivLoop (2 * h) x vs r2).2 = R at i4 ⊢
    generalize v >>> h = v' at *
    generalize (v &&& (2 ^ h - 1)) = v'' at *
    rw [← v3]
    zify at *
    linear_combination i4 - P * 2 ^ h * c1 - P * c2

/-- the last partial word: `T = rem 2^w + d` is divided by `x 2^(w - s)` -/
theorem halfDivLast_spec {h x s rem d : ℕ} (hx0 : 1 ≤ x) (hx : x < 2 ^ h) (hr : rem < x) (hd : d < 2 ^ (2 * h)) (hs0 : 1 ≤ s) (hs : s < 2 * h) :
    ∃ q R, halfDivLast (2 * h) x s rem d = (q, R) ∧ q < 2 ^ s ∧ R < 2 ^ (2 * h) ∧
      (s ≤ h → R * 2 ^ h + (d &&& (2 ^ h - 1)) < x * 2 ^ (2 * h - s) ∧
        rem * 2 ^ (2 * h) + d = x * 2 ^ (2 * h - s) * q + (R * 2 ^ h + (d &&& (2 ^ h - 1)))) ∧
      (h < s → R < x * 2 ^ (2 * h - s) ∧ rem * 2 ^ (2 * h) + d = x * 2 ^ (2 * h - s) * q + R) := by
  obtain ⟨v1, v2, v3⟩ := halves hd
  have hsh : (2 * h) >>> 1 = h := by rw [Nat.shiftRight_eq_div_pow]; omega
  have e : 2 ^ (2 * h) = 2 ^ h * 2 ^ h := by rw [two_mul, pow_add]
  unfold halfDivLast
  simp only [hsh]
  generalize hdh : d >>> h = dh at v1 v3 ⊢
  generalize hdl : d &&& (2 ^ h - 1) = dl at v2 v3 ⊢
  by_cases h1 : s ≥ h
  · simp only [if_pos h1]
    obtain ⟨a1, a2, _⟩ := half_step hr hx v1
    rw [a1]
    have b0 : (rem * 2 ^ h + dh) % x < x := Nat.mod_lt _ (by omega)
    generalize hq : (rem * 2 ^ h + dh) / x = q at a2 ⊢
    generalize hr1 : (rem * 2 ^ h + dh) % x = r1 at b0 ⊢
    have c1 : x * q + r1 = rem * 2 ^ h + dh := by rw [← hq, ← hr1]; exact Nat.div_add_mod _ _
    by_cases h2 : s - h > 0
    · rw [if_pos h2]
      obtain ⟨b1, b2, b3⟩ := half_step b0 hx v2
      obtain ⟨j, hj⟩ : ∃ j, s = h + j := ⟨s - h, by omega⟩
      subst hj
      have hjh : j < h := by omega
      rw [show h + j - h = j by omega] at h2 ⊢
      rw [show 2 * h - (h + j) = h - j by omega]
      have hX : x * 2 ^ (h - j) < 2 ^ (2 * h) := by
        have : 2 ^ (h - j) ≤ 2 ^ h := Nat.pow_le_pow_right (by norm_num) (by omega)
        rw [e]; exact lt_of_le_of_lt (Nat.mul_le_mul_left _ this) (Nat.mul_lt_mul_of_pos_right hx (Nat.two_pow_pos h))
      rw [b1, Nat.shiftLeft_eq x, Nat.mod_eq_of_lt hX]
      have hX0 : 0 < x * 2 ^ (h - j) := Nat.mul_pos (by omega) (Nat.two_pow_pos _)
      have hsplit : 2 ^ h = 2 ^ (h - j) * 2 ^ j := by rw [← pow_add]; congr 1; omega
      have hlt : r1 * 2 ^ h + dl < x * 2 ^ h := mul_add_lt b0 v2
      have d2 : (r1 * 2 ^ h + dl) / (x * 2 ^ (h - j)) < 2 ^ j := by
        refine (Nat.div_lt_iff_lt_mul hX0).2 (lt_of_lt_of_eq hlt ?_)
        rw [hsplit]; ring
      have d3 : (r1 * 2 ^ h + dl) % (x * 2 ^ (h - j)) < x * 2 ^ (h - j) := Nat.mod_lt _ hX0
      have d4 := Nat.div_add_mod (r1 * 2 ^ h + dl) (x * 2 ^ (h - j))
      generalize (r1 * 2 ^ h + dl) / (x * 2 ^ (h - j)) = q2 at d2 d4 ⊢
      generalize (r1 * 2 ^ h + dl) % (x * 2 ^ (h - j)) = R at d3 d4 ⊢
      have hqq : q * 2 ^ j + q2 < 2 ^ (h + j) := by rw [pow_add]; exact mul_add_lt a2 d2
      have hqq' : 2 ^ (h + j) ≤ 2 ^ (2 * h) := Nat.pow_le_pow_right (by norm_num) (by omega)
      rw [Nat.shiftLeft_eq, Nat.mod_eq_of_lt (a := q * 2 ^ j) (by omega), Nat.mod_eq_of_lt (by omega)]
      refine ⟨_, _, rfl, hqq, by omega, fun h' => by omega, fun _ => ⟨d3, ?_⟩⟩
      rw [← v3, e]
      generalize 2 ^ (h - j) = A at *
      generalize 2 ^ j = B at *
      rw [hsplit] at c1 d4 ⊢
      zify at *
      linear_combination -(A * B) * c1 - d4
    · rw [if_neg h2]
      have hsh' : s = h := by omega
      subst hsh'
      refine ⟨_, _, rfl, a2, ?_, fun _ => ?_, fun h' => by omega⟩
      · exact lt_of_lt_of_le (b0.trans hx) (Nat.pow_le_pow_right (by norm_num) (by omega))
      · rw [show 2 * s - s = s by omega]
        constructor
        · exact mul_add_lt b0 v2
        · rw [← v3, e]
          zify at *
          linear_combination -(2 ^ s) * c1
  · simp only [if_neg h1]
    have hsh' : s < h := by omega
    rw [if_pos (show s > 0 by omega)]
    obtain ⟨b1, b2, b3⟩ := half_step hr hx v1
    have hX : x * 2 ^ (h - s) < 2 ^ (2 * h) := by
      have : 2 ^ (h - s) ≤ 2 ^ h := Nat.pow_le_pow_right (by norm_num) (by omega)
      rw [e]; exact lt_of_le_of_lt (Nat.mul_le_mul_left _ this) (Nat.mul_lt_mul_of_pos_right hx (Nat.two_pow_pos h))
    rw [b1, Nat.shiftLeft_eq x, Nat.mod_eq_of_lt hX]
    have hX0 : 0 < x * 2 ^ (h - s) := Nat.mul_pos (by omega) (Nat.two_pow_pos _)
    have hsplit : 2 ^ h = 2 ^ (h - s) * 2 ^ s := by rw [← pow_add]; congr 1; omega
    have hlt : rem * 2 ^ h + dh < x * 2 ^ h := mul_add_lt hr v1
    have d2 : (rem * 2 ^ h + dh) / (x * 2 ^ (h - s)) < 2 ^ s := by
      refine (Nat.div_lt_iff_lt_mul hX0).2 (lt_of_lt_of_eq hlt ?_)
      rw [hsplit]; ring
    have d3 : (rem * 2 ^ h + dh) % (x * 2 ^ (h - s)) < x * 2 ^ (h - s) := Nat.mod_lt _ hX0
    have d4 := Nat.div_add_mod (rem * 2 ^ h + dh) (x * 2 ^ (h - s))
    generalize (rem * 2 ^ h + dh) / (x * 2 ^ (h - s)) = q2 at d2 d4 ⊢
    generalize (rem * 2 ^ h + dh) % (x * 2 ^ (h - s)) = R at d3 d4 ⊢
    have hqq' : 2 ^ s ≤ 2 ^ (2 * h) := Nat.pow_le_pow_right (by norm_num) (by omega)
    rw [Nat.zero_shiftLeft, Nat.zero_mod, zero_add, Nat.mod_eq_of_lt (by omega)]
    refine ⟨_, _, rfl, d2, by omega, fun _ => ?_, fun h' => by omega⟩
    have h2 : 2 ^ (2 * h - s) = 2 ^ (h - s) * 2 ^ h := by rw [← pow_add]; congr 1; omega
    rw [h2]
    constructor
    · rw [← mul_assoc]; exact mul_add_lt d3 v2
    · rw [← v3, e]
      zify at *
      linear_combination -(2 ^ h) * d4

theorem split_nat {w : ℕ} {a : List ℕ} (ha : Words w a) (n : ℕ) (hn : n ≤ a.length) :
    nat w a = nat w (a.take n) + 2 ^ (w * n) * nat w (a.drop n) ∧ nat w (a.take n) < 2 ^ (w * n) ∧ Words w (a.take n) ∧ Words w (a.drop n) ∧ (a.take n).length = n := by
  have hlen : (a.take n).length = n := by rw [List.length_take]; omega
  have h1 : Words w (a.take n) := fun x hx => ha x (List.mem_of_mem_take hx)
  refine ⟨?_, ?_, h1, fun x hx => ha x (List.mem_of_mem_drop hx), hlen⟩
  · conv_lhs => rw [← List.take_append_drop n a]
    rw [nat_append, hlen]
  · have := nat_lt h1; rwa [hlen] at this

theorem halfDiv_high {h x : ℕ} (hx0 : 1 ≤ x) (hx : x < 2 ^ h) {a : List ℕ} (ha : Words (2 * h) a) (n : ℕ) (hn : n ≤ a.length) :
    let t := halfDivLoop (2 * h) x (a.reverse.take (a.length - n)) 0
    Words (2 * h) (t.1.reverse ++ List.replicate n 0) ∧ (t.1.reverse ++ List.replicate n 0).length = a.length ∧ t.2 < x ∧
      nat (2 * h) (t.1.reverse ++ List.replicate n 0) < 2 ^ (2 * h * (a.length - n)) ∧
      nat (2 * h) (a.drop n) = x * nat (2 * h) (t.1.reverse ++ List.replicate n 0) + t.2 := by
  intro t
  have hrev : (a.reverse.take (a.length - n)).reverse = a.drop n := by
    rw [List.reverse_take, List.reverse_reverse, List.length_reverse]; congr 1; omega
  have hW : Words (2 * h) (a.reverse.take (a.length - n)) := fun y hy => ha y (List.mem_reverse.1 (List.mem_of_mem_take hy))
  obtain ⟨i1, i2, i3, i4⟩ := halfDivLoop_spec hx0 hx _ 0 hW (by omega)
  rw [zero_mul, zero_add, hrev] at i4
  have hlen : (a.reverse.take (a.length - n)).length = a.length - n := by rw [List.length_take, List.length_reverse]; omega
  rw [hlen] at i2
  have hn0 : nat (2 * h) (t.1.reverse ++ List.replicate n 0) = nat (2 * h) t.1.reverse := by rw [nat_append, nat_replicate_zero]; simp
  refine ⟨words_append (words_reverse i1) (words_replicate (Nat.two_pow_pos _)), ?_, i3, ?_, ?_⟩
  · rw [List.length_append, List.length_reverse, i2, List.length_replicate]; omega
  · rw [hn0]
    have := nat_lt (words_reverse i1)
    rwa [List.length_reverse, i2] at this
  · rw [hn0]; exact i4

theorem nat_set_zero {w : ℕ} {q : List ℕ} (hq : Words w q) (hne : 1 ≤ q.length) {s t : ℕ} (hs : s ≤ w) (hdiv : 2 ^ s ∣ nat w q) (ht : t < 2 ^ s) :
    Words w (q.set 0 ((q.getD 0 0 + t) % 2 ^ w)) ∧ (q.set 0 ((q.getD 0 0 + t) % 2 ^ w)).length = q.length ∧
      nat w (q.set 0 ((q.getD 0 0 + t) % 2 ^ w)) = nat w q + t := by
  cases q with
  | nil => simp at hne
  | cons v vs =>
    rw [nat_cons] at hdiv ⊢
    have hv : v < 2 ^ w := hq.head
    have hws : 2 ^ w = 2 ^ s * 2 ^ (w - s) := by rw [← pow_add]; congr 1; omega
    have hdv : 2 ^ s ∣ v := by
      refine (Nat.dvd_add_left ?_).1 hdiv
      rw [hws, mul_assoc]; exact Dvd.intro _ rfl
    obtain ⟨u, hu⟩ := hdv
    have hlt : v + t < 2 ^ w := by
      rw [hws]
      have hu' : u < 2 ^ (w - s) := by rw [hu, hws] at hv; exact Nat.lt_of_mul_lt_mul_left hv
      have := mul_add_lt hu' ht
      rw [hu, mul_comm (2 ^ s) u, mul_comm (2 ^ s)]; exact this
    simp only [List.getD_cons_zero, List.set_cons_zero]
    rw [Nat.mod_eq_of_lt hlt]
    refine ⟨words_cons hlt hq.tail, by simp, ?_⟩
    rw [nat_cons]; omega

theorem divHalfPow2_spec {k : ℕ} (hk : 1 ≤ k) {a : List ℕ} (ha : Words (2 ^ k) a) (x e : ℕ) (hx0 : 1 ≤ x) (hx : x < 2 ^ (2 ^ k / 2)) :
    ∃ q r, divHalfPow2 (2 ^ k) a x e = some (q, r) ∧ Words (2 ^ k) q ∧ Words (2 ^ k) r ∧ q.length = a.length ∧ r.length = a.length ∧
      nat (2 ^ k) a = x * 2 ^ e * nat (2 ^ k) q + nat (2 ^ k) r ∧ nat (2 ^ k) r < x * 2 ^ e := by
  obtain ⟨h, hh⟩ : ∃ h, 2 ^ k = 2 * h := ⟨2 ^ (k - 1), by rw [← pow_succ']; congr 1; omega⟩
  have hlog : Nat.log2 (2 ^ k) = k := Nat.log2_two_pow
  have h1 : 1 ≤ h := by have := Nat.two_pow_pos k; omega
  have hlower : ((e >>> k) + (if e &&& (2 ^ k - 1) ≠ 0 then 1 else 0)) <<< k = 2 * h * (e / (2 * h) + (if e % (2 * h) ≠ 0 then 1 else 0)) := by
    rw [Nat.shiftLeft_eq, Nat.shiftRight_eq_div_pow, Nat.and_two_pow_sub_one_eq_mod, hh, mul_comm]
  have hsh : (2 * h) >>> 1 = h := by rw [Nat.shiftRight_eq_div_pow]; omega
  unfold divHalfPow2
  simp only
  rw [hlog, hlower]
  rw [hh] at ha hx ⊢
  rw [show 2 * h / 2 = h by omega] at hx
  rw [if_neg (by omega)]
  by_cases he : e ≥ 2 * h * a.length
  · rw [if_pos he]
    refine ⟨_, _, rfl, words_replicate (Nat.two_pow_pos _), ha, by simp, rfl, by simp [nat_replicate_zero], ?_⟩
    refine lt_of_lt_of_le (nat_lt ha) (le_trans (Nat.pow_le_pow_right (by norm_num) he) ?_)
    exact Nat.le_mul_of_pos_left _ hx0
  · rw [if_neg he]
    have hdm : 2 * h * (e / (2 * h)) + e % (2 * h) = e := Nat.div_add_mod _ _
    have hml : e % (2 * h) < 2 * h := Nat.mod_lt _ (by omega)
    have hediv : e / (2 * h) < a.length := Nat.div_lt_of_lt_mul (by omega)
    by_cases hm : e % (2 * h) = 0
    · simp only [hm, ne_eq, not_true_eq_false, if_false, add_zero]
      rw [hm, add_zero] at hdm
      generalize e / (2 * h) = n at hdm hediv
      rw [Nat.mul_div_cancel_left _ (by omega : 0 < 2 * h), if_neg (by omega)]
      obtain ⟨g1, g2, g3, _, g4⟩ := halfDiv_high hx0 hx ha n hediv.le
      obtain ⟨s1, s2, s3, s4, s5⟩ := split_nat ha n hediv.le
      generalize halfDivLoop (2 * h) x (a.reverse.take (a.length - n)) 0 = t at g1 g2 g3 g4 ⊢
      have hp : 2 ^ h ≤ 2 ^ (2 * h) := Nat.pow_le_pow_right (by norm_num) (by omega)
      have hrn : nat (2 * h) (a.take n ++ t.2 :: List.replicate (a.length - n - 1) 0) = nat (2 * h) (a.take n) + 2 ^ e * t.2 := by
        rw [nat_append, nat_cons, nat_replicate_zero, s5, hdm]; ring
      refine ⟨_, _, rfl, g1, words_append s3 (words_cons (by omega) (words_replicate (Nat.two_pow_pos _))), g2, ?_, ?_, ?_⟩
      · rw [List.length_append, s5, List.length_cons, List.length_replicate]; omega
      · rw [hrn, s1, g4, hdm]; ring
      · rw [hrn]
        rw [hdm] at s2
        have := mul_add_lt g3 s2
        rw [mul_comm (2 ^ e), add_comm]; exact this
    · simp only [hm, ne_eq, not_false_eq_true, if_true]
      generalize hpos : e / (2 * h) = pos at hdm hediv
      rw [Nat.mul_div_cancel_left _ (by omega : 0 < 2 * h), Nat.add_sub_cancel]
      have hs : 2 * h * (pos + 1) - e = 2 * h - e % (2 * h) := by rw [Nat.mul_succ]; omega
      rw [hs]
      generalize hsd : 2 * h - e % (2 * h) = s
      have hs0 : 1 ≤ s := by omega
      have hs1 : s < 2 * h := by omega
      rw [if_pos (by omega), hsh]
      obtain ⟨g1, g2, g3, g5, g4⟩ := halfDiv_high hx0 hx ha (pos + 1) hediv
      obtain ⟨s1, s2, s3, s4, s5⟩ := split_nat ha pos hediv.le
      have hdrop : nat (2 * h) (a.drop pos) = a.getD pos 0 + 2 ^ (2 * h) * nat (2 * h) (a.drop (pos + 1)) := by
        rw [List.drop_eq_getElem_cons hediv, nat_cons, List.getD_eq_getElem?_getD, List.getElem?_eq_getElem hediv]; rfl
      have hd := getD_lt ha pos
      generalize a.getD pos 0 = d at hd hdrop ⊢
      generalize halfDivLoop (2 * h) x (a.reverse.take (a.length - (pos + 1))) 0 = t at g1 g2 g3 g4 g5 ⊢
      generalize hQ : t.1.reverse ++ List.replicate (pos + 1) 0 = Q at g1 g2 g4 g5 ⊢
      obtain ⟨q, R, l0, l1, l2, l3, l4⟩ := halfDivLast_spec hx0 hx g3 hd hs0 hs1
      rw [l0]
      simp only
      obtain ⟨w1, w2, w3⟩ := shl_spec (by omega : 1 ≤ 2 * h) g1 s
      have hQs : nat (2 * h) Q * 2 ^ s < 2 ^ (2 * h * a.length) := by
        calc nat (2 * h) Q * 2 ^ s < 2 ^ (2 * h * (a.length - (pos + 1))) * 2 ^ s := Nat.mul_lt_mul_of_pos_right g5 (Nat.two_pow_pos s)
          _ = 2 ^ (2 * h * (a.length - (pos + 1)) + s) := (pow_add _ _ _).symm
          _ ≤ 2 ^ (2 * h * a.length) := Nat.pow_le_pow_right (by norm_num) (by
            obtain ⟨m, hm'⟩ : ∃ m, a.length = m + (pos + 1) := ⟨a.length - (pos + 1), by omega⟩
            rw [hm', Nat.add_sub_cancel]
            have : 2 * h * (m + (pos + 1)) = 2 * h * m + 2 * h * pos + 2 * h := by ring
            have h0 : 0 ≤ 2 * h * pos := Nat.zero_le _
            omega)
      rw [g2, Nat.mod_eq_of_lt hQs] at w3
      rw [g2] at w2
      obtain ⟨u1, u2, u3⟩ := nat_set_zero w1 (by omega) hs1.le (by rw [w3]; exact Dvd.intro_left _ rfl) l1
      rw [w3] at u3
      rw [w2] at u2
      have hee : 2 ^ e = 2 ^ (2 * h * pos) * 2 ^ (2 * h - s) := by rw [← pow_add]; congr 1; omega
      have h2s : 2 ^ (2 * h) = 2 ^ (2 * h - s) * 2 ^ s := by rw [← pow_add]; congr 1; omega
      -- the remainder words above `pos`
      suffices H : ∀ (high : List ℕ) (V : ℕ), Words (2 * h) high → high.length = a.length - pos → nat (2 * h) high = V → V < x * 2 ^ (2 * h - s) →
          t.2 * 2 ^ (2 * h) + d = x * 2 ^ (2 * h - s) * q + V →
          ∃ q' r, some ((shl (2 * h) Q s).set 0 (((shl (2 * h) Q s).getD 0 0 + q) % 2 ^ (2 * h)), a.take pos ++ high) = some (q', r) ∧
            Words (2 * h) q' ∧ Words (2 * h) r ∧ q'.length = a.length ∧ r.length = a.length ∧
            nat (2 * h) a = x * 2 ^ e * nat (2 * h) q' + nat (2 * h) r ∧ nat (2 * h) r < x * 2 ^ e by
        by_cases hsh' : s ≤ h
        · rw [if_pos hsh']
          obtain ⟨l5, l6⟩ := l3 hsh'
          obtain ⟨_, v2, v3⟩ := halves hd
          generalize d &&& (2 ^ h - 1) = dl at *
          have e2 : 2 ^ (2 * h) = 2 ^ h * 2 ^ h := by rw [two_mul, pow_add]
          have hRm : (R <<< h) % 2 ^ (2 * h) = (R % 2 ^ h) * 2 ^ h := by
            rw [Nat.shiftLeft_eq, e2, Nat.mul_mod_mul_right]
          have hlo : (R <<< h) % 2 ^ (2 * h) + dl < 2 ^ (2 * h) := by
            rw [hRm, e2]; exact mul_add_lt (Nat.mod_lt _ (Nat.two_pow_pos h)) v2
          have hR2 : R >>> h < 2 ^ (2 * h) := by rw [Nat.shiftRight_eq_div_pow]; exact lt_of_le_of_lt (Nat.div_le_self _ _) l2
          have hval : (R <<< h) % 2 ^ (2 * h) + dl + 2 ^ (2 * h) * (R >>> h) = R * 2 ^ h + dl := by
            rw [hRm, Nat.shiftRight_eq_div_pow, e2]
            have := Nat.div_add_mod R (2 ^ h)
            generalize R / 2 ^ h = A at *
            generalize R % 2 ^ h = B at *
            rw [← this]; ring
          rw [Nat.mod_eq_of_lt hlo]
          by_cases hpl : pos < a.length - 1
          · rw [if_pos hpl]
            refine H _ _ (words_cons hlo (words_cons hR2 (words_replicate (Nat.two_pow_pos _)))) ?_ ?_ l5 l6
            · simp only [List.length_cons, List.length_replicate]; omega
            · rw [nat_cons, nat_cons, nat_replicate_zero, mul_zero, add_zero, hval]
          · rw [if_neg hpl]
            refine H [_] (R * 2 ^ h + dl) (words_cons hlo (words_nil _)) (by simp; omega) ?_ l5 l6
            rw [nat_cons, nat_nil, mul_zero, add_zero, ← hval]
            have hR0 : R >>> h = 0 := by
              -- the dividend has no words above `pos`
              have hdr : a.drop (pos + 1) = [] := List.drop_eq_nil_of_le (by omega)
              rw [hdr, nat_nil] at g4
              have ht : t.2 = 0 := by omega
              rw [ht, zero_mul, zero_add] at l6
              rw [Nat.shiftRight_eq_div_pow]
              refine Nat.div_eq_of_lt ?_
              rw [e2] at hd
              by_contra hge
              have : 2 ^ h * 2 ^ h ≤ R * 2 ^ h := Nat.mul_le_mul_right _ (by omega)
              omega
            rw [hR0]; simp
        · rw [if_neg hsh']
          obtain ⟨l5, l6⟩ := l4 (by omega)
          refine H _ R (words_cons l2 (words_replicate (Nat.two_pow_pos _))) ?_ ?_ l5 l6
          · simp only [List.length_cons, List.length_replicate]; omega
          · rw [nat_cons, nat_replicate_zero]; ring
      intro high V H1 H2 H3 H4 H5
      refine ⟨_, _, rfl, u1, words_append s3 H1, u2, by rw [List.length_append, s5, H2]; omega, ?_, ?_⟩
      · rw [u3, nat_append, s5, H3, s1, hdrop, g4, hee]
        have h2s' := h2s
        generalize 2 ^ (2 * h) = W at *
        generalize 2 ^ (2 * h - s) = A at *
        generalize 2 ^ s = B at *
        generalize 2 ^ (2 * h * pos) = P at *
        generalize nat (2 * h) Q = n
        generalize nat (2 * h) (a.take pos) = L
        rw [h2s'] at H5 ⊢
        clear * - H5
        zify at *
        linear_combination (P : ℤ) * H5
      · rw [nat_append, s5, H3, hee, mul_comm (2 ^ (2 * h * pos)) (2 ^ (2 * h - s)), ← mul_assoc, add_comm, mul_comm _ V]
        exact mul_add_lt H4 s2

end BI
end Verif
