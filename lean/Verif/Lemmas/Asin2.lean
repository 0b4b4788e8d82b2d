import Verif.Lemmas.Asin1

/-!
# The polynomial of `asin_eval` against arcsine

The difference between the polynomial (exact coefficients) and the Taylor polynomial of order 69 is bounded on `[0, 1/4]` (in `s = x²`) by kernel evaluation on 128 intervals.
-/

namespace Verif
open Real

/-- the polynomial of `asin_eval` over the reals, with the exact coefficients -/
noncomputable def asinP (s : ℝ) : ℝ :=
  (46912496118439 / 2 ^ 48) + s * ((5404319553092955 / 2 ^ 56) + s * ((1608428426836271 / 2 ^ 55) + s * ((4378501779311471 / 2 ^ 57) + s * ((6448219253556811 / 2 ^ 58) + s * ((1250901783711773 / 2 ^ 56) + s * ((2001016989263467 / 2 ^ 57) + s * ((7016398763515161 / 2 ^ 59) + s * ((7515851594203209 / 2 ^ 60) + s * ((2817569923332003 / 2 ^ 57) + s * ((-4685721306087269 / 2 ^ 58) + s * ((4602030130368581 / 2 ^ 57))))))))))))

/-- `2^340 L (s asinP(s) - Σ aₙ sⁿ)` as a polynomial in `1024 s`, where `L` is the common denominator -/
def asinDiff : List ℤ := [
  0,
  -2602077786203214243437602206544438837789082276286359473735091001354902675698950289011477875064051530400375989928215214239499524505600,
  672341972939792683886421408043187423219364079203544944372994635229946508465912025440042158739262832586043584078050313393484553256960,
  -60859294652545813729838499799348134532240874626080707800973712806978594304108461222724653186321618556132764085583689233948108390400,
  2764492242749910128222204804943184248548796802345931736416809673244098594668402771762927673173199751463711765805524571907529113600,
  -73478491158234362038255055341835112019295766776637707616761725688097758820801493018175224907660369233056849801788271914857267200,
  1239257232417771239316722588231870685063277479428938856778813658229650432055264578918281561812138562059051124930487586390016000,
  -13860354310748998060995701594400874158158863091747945872174453221789462552506971460103649662772454533931999369431768797020160,
  104852303032080830953458309231911668502498583948476444135022522802659915394690892176340384865160134446625841871266932326400,
  -535782733985713953281993767173754600428761498757463093275914451940828905736619963686222710693425510612496794780486860800,
  1800827090831505069091671847969688555818101295605666333243275103863723286406008595353233582311445714634741082855833600,
  -3713961219010515690595162486362670267829000120804194419286315738601430357910486217153216309406990061866625636761600,
  3921815768300553857391773384505203335438614866252685368480015448060202859556717448442864962664972669893258248192,
  -862588968097461396780520327686903732752916029993830353983788226862289673805958832903565776824063030722560000,
  -756267508061510639062739713482038010382441822209703962118733664686212154841132991921349978959097364480000,
  -667864766338762650633992879534603879716517108197203704786054070061643588522127904702049030057754624000,
  -593537339136806517869676215184764818973030729330826046382462899252448331492813495445176667078656000,
  -530431133731603120043393348161936127775103781710600679909485045698132412844401503856845284966400,
  -476388110880324041365454945789323324685404740137221571832417755387378740362231256323194880000,
  -429750313524773593426658852048530037200520233194068622848254514542558551284617618391040000,
  -389225792487126426496967960393134400356082837919313533341389050959431900547770220544000,
  -353794944137412792288186049442861321094709935275625329601672265767107160604409856000,
  -322643846526828959981088228683243855894944893428736207008311641514451714388787200,
  -295116008224819251905111578852936014914604265976052455766430403916894044160000,
  -270676909847597177708794824586678083540255311113671490847236378884833280000,
  -248887584460815266421115339243494974946443398431343922152349320504934400,
  -229384683128352241402749468975477661606104890225277498780452231577600,
  -211865259005267994430083142082319533700135678609928876681624289280,
  -196075029030992912931437940798962919212983149950998973251584000,
  -181799229172477710321723940922201051024101361077790441472000,
  -168855425191415564599855126779740292705904424391593164800,
  -157087812904340206742246735477923994425310810682163200,
  -146362663719136465350805967621291018881943595909120,
  -136564658555003649655476879893844554477305344000,
  -127593916559563523871965353644557101234611375]

/-- common denominator of `asinDiff`, scaled -/
def asinDen : ℕ := 91325081296067199724024177777326808584368947200 * (2 ^ 200 * 2 ^ 140)

theorem asinDiff_check : pcheck asinDiff (asinDen * 18 / (100 * 2 ^ 53)) 128 = true := by decide +kernel

/-- the tail `Σ aₙ sⁿ`, `1 ≤ n ≤ 34`, of the Taylor polynomial -/
noncomputable def asinT (s : ℝ) : ℝ :=
  s * ((1 / 6) + s * ((3 / 40) + s * ((5 / 112) + s * ((35 / 1152) + s * ((63 / 2816) + s * ((231 / 13312) + s * ((143 / 10240) + s * ((6435 / 557056) + s * ((12155 / 1245184) + s * ((46189 / 5505024) + s * ((88179 / 12058624) + s * ((676039 / 104857600) + s * ((1300075 / 226492416) + s * ((5014575 / 973078528) + s * ((9694845 / 2080374784) + s * ((100180065 / 23622320128) + s * ((116680311 / 30064771072) + s * ((2268783825 / 635655159808) + s * ((1472719325 / 446676598784) + s * ((34461632205 / 11269994184704) + s * ((67282234305 / 23639499997184) + s * ((17534158031 / 6597069766656) + s * ((514589420475 / 206708186021888) + s * ((8061900920775 / 3448068464705536) + s * ((5267108601573 / 2392537302040576) + s * ((61989816618513 / 29836347531329536) + s * ((121683714103007 / 61924494876344320) + s * ((956086325095055 / 513410357520236544) + s * ((1879204156221315 / 1062849512059437056) + s * ((7391536347803839 / 4395513236313604096) + s * ((2077805148460987 / 1297036692682702848) + s * ((916312070471295267 / 599519182395560427520) + s * ((1804857108504066435 / 1235931852938539958272) + s * ((2371086789603381395 / 1697100454781278748672)))))))))))))))))))))))))))))))))))

theorem Tq34 (x : ℝ) : Tq 34 x = x * (1 + asinT (x ^ 2)) := by
  unfold asinT
  simp only [Tq, Finset.sum_range_succ, Finset.sum_range_zero, bq]
  norm_num
  ring

theorem asinDiff_eq (s : ℝ) : pev asinDiff (1024 * s) = asinDen * (s * asinP s - asinT s) := by
  unfold asinDiff asinDen asinP asinT
  simp only [pev]
  push_cast
  ring

theorem asinP_near {s : ℝ} (h0 : 0 ≤ s) (h1 : s ≤ 1 / 4) : |s * asinP s - asinT s| ≤ 18 / 100 / 2 ^ 53 := by
  have h := pcheck_sound asinDiff_check (y := 1024 * s) (by linarith) (by push_cast; linarith) (by norm_num)
  rw [asinDiff_eq, abs_mul] at h
  have hD : (0 : ℝ) < asinDen := by unfold asinDen; positivity
  have h2 : ((asinDen * 18 / (100 * 2 ^ 53) : ℕ) : ℝ) ≤ asinDen * (18 / 100 / 2 ^ 53) := by
    have := @Nat.cast_div_le ℝ _ _ _ (asinDen * 18) (100 * 2 ^ 53)
    refine le_trans this (le_of_eq ?_)
    push_cast; ring
  rw [abs_of_pos hD] at h
  exact le_of_mul_le_mul_left (le_trans h h2) hD

/-- `x + x³ P(x²)` approximates `arcsin x` on `[0, 1/2]` to within `0.2 · 2^-53` relative to `x` -/
theorem asinP_arcsin {x : ℝ} (h0 : 0 ≤ x) (h1 : x ≤ 1 / 2) : |x + x * (x ^ 2 * asinP (x ^ 2)) - arcsin x| ≤ 1 / 5 / 2 ^ 53 * x := by
  have hs : x ^ 2 ≤ 1 / 4 := by nlinarith
  have e := asinP_near (s := x ^ 2) (by positivity) hs
  have t := Tq_near 34 h0 h1
  rw [Tq34] at t
  have hp : x ^ (2 * 34 + 2) ≤ (1 / 2 : ℝ) ^ (2 * 34 + 2) := pow_le_pow_left₀ h0 h1 _
  have h2 : |x * (1 + asinT (x ^ 2)) - arcsin x| ≤ (1 / 100 / 2 ^ 53) * x := by
    refine le_trans t (mul_le_mul_of_nonneg_right ?_ h0)
    have := mul_le_mul_of_nonneg_left hp (show (0 : ℝ) ≤ 16 / 9 * (2 * (34 : ℕ) + 1) by positivity)
    refine le_trans this ?_
    norm_num
  have h3 : |x * (x ^ 2 * asinP (x ^ 2) - asinT (x ^ 2))| ≤ x * (18 / 100 / 2 ^ 53) := by
    rw [abs_mul, abs_of_nonneg h0]; exact mul_le_mul_of_nonneg_left e h0
  have e2 : x + x * (x ^ 2 * asinP (x ^ 2)) - arcsin x = x * (x ^ 2 * asinP (x ^ 2) - asinT (x ^ 2)) + (x * (1 + asinT (x ^ 2)) - arcsin x) := by ring
  rw [e2]
  refine le_trans (abs_add_le _ _) ?_
  have : (1 / 100 / 2 ^ 53) * x + x * (18 / 100 / 2 ^ 53) ≤ 1 / 5 / 2 ^ 53 * x := by
    have e3 : (1 / 100 / 2 ^ 53) * x + x * (18 / 100 / 2 ^ 53) = (19 / 100 / 2 ^ 53) * x := by ring
    rw [e3]
    exact mul_le_mul_of_nonneg_right (by norm_num) h0
  linarith

end Verif
