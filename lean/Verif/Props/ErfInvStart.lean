import Verif.Analysis.ErfInv
import Verif.Props.IbetaAcc
import Verif.Props.InvHypAcc

/-! # The starting value of `erf_inv` (towards C83) -/

namespace Gcem.Props
open FV

variable {f : Fmt}

/-! ## A table of values of the inverse error function -/

/-- a point `p`, bounds for the inverse error function there, and bounds for `-log(1-p²)` -/
structure EiNode where
  p : ℚ
  ya : ℚ
  yb : ℚ
  wa : ℚ
  wb : ℚ

def expN (n : ℕ) (s : ℚ) : ℚ := ∑ k ∈ Finset.range n, (-s) ^ k / (k.factorial : ℚ)

def EiNode.ok (n : EiNode) : Bool :=
  decide (0 < n.p) && decide (n.p < 1) && decide (0 < n.ya) && decide (n.ya ≤ n.yb) && decide (0 ≤ n.wa) && decide (0 ≤ n.wb) &&
  decide (112838 / 100000 * erfN 15 n.ya ≤ n.p) && decide (n.p ≤ 112837 / 100000 * erfN 14 n.yb) &&
  decide (0 ≤ erfN 14 n.yb) && decide (0 ≤ erfN 15 n.ya) &&
  decide (1 - n.p ^ 2 ≤ expN 16 n.wa) && decide (expN 17 n.wb ≤ 1 - n.p ^ 2)

def eiTable : List EiNode :=
  [⟨1600/10000, 142738/1000000, 142782/1000000, 25853/1000000, 26014/1000000⟩,
   ⟨1664/10000, 148531/1000000, 148577/1000000, 27999/1000000, 28160/1000000⟩, ⟨2336/10000, 210040/1000000, 210104/1000000, 56034/1000000, 56195/1000000⟩,
   ⟨2844/10000, 257592/1000000, 257670/1000000, 84262/1000000, 84423/1000000⟩, ⟨3266/10000, 297991/1000000, 298081/1000000, 112716/1000000, 112877/1000000⟩,
   ⟨3631/10000, 333730/1000000, 333832/1000000, 141301/1000000, 141462/1000000⟩, ⟨3956/10000, 366285/1000000, 366396/1000000, 170114/1000000, 170275/1000000⟩,
   ⟨4250/10000, 396417/1000000, 396537/1000000, 199133/1000000, 199294/1000000⟩, ⟨4519/10000, 424631/1000000, 424759/1000000, 228344/1000000, 228505/1000000⟩,
   ⟨4767/10000, 451255/1000000, 451391/1000000, 257710/1000000, 257871/1000000⟩, ⟨4997/10000, 476531/1000000, 476675/1000000, 287202/1000000, 287363/1000000⟩,
   ⟨5212/10000, 500721/1000000, 500873/1000000, 316892/1000000, 317053/1000000⟩, ⟨5414/10000, 523996/1000000, 524154/1000000, 346805/1000000, 346966/1000000⟩,
   ⟨5604/10000, 546418/1000000, 546583/1000000, 376867/1000000, 377028/1000000⟩, ⟨5784/10000, 568180/1000000, 568351/1000000, 407206/1000000, 407367/1000000⟩,
   ⟨5954/10000, 589238/1000000, 589416/1000000, 437651/1000000, 437812/1000000⟩, ⟨6116/10000, 609804/1000000, 609988/1000000, 468412/1000000, 468573/1000000⟩,
   ⟨6270/10000, 629844/1000000, 630034/1000000, 499359/1000000, 499520/1000000⟩, ⟨6416/10000, 649322/1000000, 649518/1000000, 530354/1000000, 530515/1000000⟩,
   ⟨6556/10000, 668474/1000000, 668675/1000000, 561708/1000000, 561869/1000000⟩, ⟨6690/10000, 687276/1000000, 687483/1000000, 593332/1000000, 593493/1000000⟩,
   ⟨6818/10000, 705702/1000000, 705915/1000000, 625130/1000000, 625291/1000000⟩, ⟨6940/10000, 723722/1000000, 723940/1000000, 656997/1000000, 657158/1000000⟩,
   ⟨7057/10000, 741456/1000000, 741680/1000000, 689100/1000000, 689261/1000000⟩, ⟨7169/10000, 758881/1000000, 759110/1000000, 721354/1000000, 721515/1000000⟩,
   ⟨7277/10000, 776132/1000000, 776366/1000000, 753979/1000000, 754140/1000000⟩, ⟨7381/10000, 793192/1000000, 793431/1000000, 786919/1000000, 787080/1000000⟩,
   ⟨7481/10000, 810043/1000000, 810287/1000000, 820113/1000000, 820274/1000000⟩, ⟨7577/10000, 826665/1000000, 826914/1000000, 853492/1000000, 853653/1000000⟩,
   ⟨7669/10000, 843035/1000000, 843289/1000000, 886981/1000000, 887142/1000000⟩, ⟨7758/10000, 859313/1000000, 859572/1000000, 920885/1000000, 921046/1000000⟩,
   ⟨7843/10000, 875297/1000000, 875561/1000000, 954760/1000000, 954921/1000000⟩, ⟨7925/10000, 891152/1000000, 891421/1000000, 988932/1000000, 989093/1000000⟩,
   ⟨8004/10000, 906864/1000000, 907137/1000000, 1023351/1000000, 1023512/1000000⟩, ⟨8080/10000, 922413/1000000, 922691/1000000, 1057958/1000000, 1058119/1000000⟩,
   ⟨8153/10000, 937781/1000000, 938063/1000000, 1092691/1000000, 1092852/1000000⟩, ⟨8224/10000, 953165/1000000, 953452/1000000, 1127987/1000000, 1128148/1000000⟩,
   ⟨8292/10000, 968334/1000000, 968626/1000000, 1163303/1000000, 1163464/1000000⟩, ⟨8358/10000, 983497/1000000, 983793/1000000, 1199109/1000000, 1199270/1000000⟩,
   ⟨8421/10000, 998404/1000000, 998705/1000000, 1234807/1000000, 1234968/1000000⟩, ⟨8482/10000, 1013275/1000000, 1013580/1000000, 1270899/1000000, 1271060/1000000⟩,
   ⟨8541/10000, 1028097/1000000, 1028406/1000000, 1307354/1000000, 1307515/1000000⟩, ⟨8598/10000, 1042859/1000000, 1043172/1000000, 1344136/1000000, 1344297/1000000⟩,
   ⟨8653/10000, 1057547/1000000, 1057865/1000000, 1381203/1000000, 1381364/1000000⟩, ⟨8706/10000, 1072146/1000000, 1072469/1000000, 1418507/1000000, 1418668/1000000⟩,
   ⟨8757/10000, 1086640/1000000, 1086967/1000000, 1455995/1000000, 1456156/1000000⟩, ⟨8806/10000, 1101010/1000000, 1101341/1000000, 1493605/1000000, 1493766/1000000⟩,
   ⟨8854/10000, 1115541/1000000, 1115877/1000000, 1532087/1000000, 1532248/1000000⟩, ⟨8900/10000, 1129923/1000000, 1130263/1000000, 1570618/1000000, 1570779/1000000⟩,
   ⟨8944/10000, 1144132/1000000, 1144476/1000000, 1609114/1000000, 1609275/1000000⟩, ⟨8987/10000, 1158479/1000000, 1158828/1000000, 1648419/1000000, 1648580/1000000⟩,
   ⟨9028/10000, 1172618/1000000, 1172971/1000000, 1687578/1000000, 1687739/1000000⟩, ⟨9068/10000, 1186880/1000000, 1187237/1000000, 1727501/1000000, 1727662/1000000⟩,
   ⟨9106/10000, 1200891/1000000, 1201252/1000000, 1767137/1000000, 1767298/1000000⟩, ⟨9143/10000, 1215001/1000000, 1215367/1000000, 1807470/1000000, 1807631/1000000⟩,
   ⟨9179/10000, 1229212/1000000, 1229581/1000000, 1848506/1000000, 1848667/1000000⟩, ⟨9213/10000, 1243104/1000000, 1243478/1000000, 1889030/1000000, 1889191/1000000⟩,
   ⟨9246/10000, 1257063/1000000, 1257442/1000000, 1930149/1000000, 1930310/1000000⟩, ⟨9278/10000, 1271084/1000000, 1271467/1000000, 1971855/1000000, 1972016/1000000⟩,
   ⟨9309/10000, 1285161/1000000, 1285548/1000000, 2014134/1000000, 2014295/1000000⟩, ⟨9339/10000, 1299286/1000000, 1299677/1000000, 2056967/1000000, 2057128/1000000⟩,
   ⟨9368/10000, 1313453/1000000, 1313848/1000000, 2100333/1000000, 2100494/1000000⟩, ⟨9395/10000, 1327133/1000000, 1327532/1000000, 2142601/1000000, 2142762/1000000⟩,
   ⟨9400/10000, 1329722/1000000, 1330122/1000000, 2150642/1000000, 2150803/1000000⟩]

theorem eiTable_ok : eiTable.all EiNode.ok = true := by decide +kernel

theorem erfN_cast (n : ℕ) (x : ℚ) : ((erfN n x : ℚ) : ℝ) = erfN n (x:ℝ) := by
  unfold erfN; push_cast; rfl

theorem expN_cast (n : ℕ) (x : ℚ) : ((expN n x : ℚ) : ℝ) = ∑ k ∈ Finset.range n, (-(x:ℝ)) ^ k / (k.factorial : ℝ) := by
  unfold expN; push_cast; rfl

theorem EiNode.sound {n : EiNode} (h : n.ok = true) : 0 < n.p ∧ n.p < 1 ∧ 0 < n.ya ∧ n.ya ≤ n.yb ∧ erfR n.ya ≤ n.p ∧ (n.p:ℝ) ≤ erfR n.yb ∧
    (n.wa:ℝ) ≤ -Real.log (1 - (n.p:ℝ) ^ 2) ∧ -Real.log (1 - (n.p:ℝ) ^ 2) ≤ n.wb := by
  unfold EiNode.ok at h
  simp only [Bool.and_eq_true, decide_eq_true_eq] at h
  obtain ⟨⟨⟨⟨⟨⟨⟨⟨⟨⟨⟨h1, h2⟩, h3⟩, h4⟩, h5⟩, h6⟩, h7⟩, h8⟩, h9⟩, h10⟩, h11⟩, h12⟩ := h
  have yb0 : (0:ℝ) ≤ n.yb := by exact_mod_cast h3.le.trans h4
  have ya0 : (0:ℝ) ≤ n.ya := by exact_mod_cast h3.le
  have c1 := erfC_le
  have c2 := erfC_ge
  have k7 := (Rat.cast_le (K := ℝ)).2 h7
  have k8 := (Rat.cast_le (K := ℝ)).2 h8
  have k9 := (Rat.cast_le (K := ℝ)).2 h9
  have k10 := (Rat.cast_le (K := ℝ)).2 h10
  have k11 := (Rat.cast_le (K := ℝ)).2 h11
  have k12 := (Rat.cast_le (K := ℝ)).2 h12
  have p0 : (0:ℝ) < n.p := by exact_mod_cast h1
  have p1 : (n.p:ℝ) < 1 := by exact_mod_cast h2
  have q0 : 0 < 1 - (n.p:ℝ) ^ 2 := by nlinarith
  push_cast [erfN_cast, expN_cast] at k7 k8 k9 k10 k11 k12
  refine ⟨h1, h2, h3, h4, ?_, ?_, ?_, ?_⟩
  · refine (erf_alt 7 ya0).2.trans (le_trans ?_ k7)
    exact mul_le_mul_of_nonneg_right c1 k10
  · refine k8.trans (le_trans ?_ (erf_alt 7 yb0).1)
    exact mul_le_mul_of_nonneg_right c2 k9
  · have := k11.trans ((exp_alt 8).1 n.wa (by exact_mod_cast h5))
    have := (Real.log_le_log q0 this)
    rw [Real.log_exp] at this
    linarith
  · have := ((exp_alt 8).2 n.wb (by exact_mod_cast h6)).trans k12
    have := (Real.log_le_log (Real.exp_pos _) this)
    rw [Real.log_exp] at this
    linarith

/-! ## Interval Horner scheme for the rounded polynomial -/

/-- bounds for a product of two intervals -/
def prodLo (a0 a1 b0 b1 : ℚ) : ℚ := min (min (a0 * b0) (a0 * b1)) (min (a1 * b0) (a1 * b1))
def prodHi (a0 a1 b0 b1 : ℚ) : ℚ := max (max (a0 * b0) (a0 * b1)) (max (a1 * b0) (a1 * b1))

theorem prod_mem {a0 a1 b0 b1 a b : ℚ} (h1 : a0 ≤ a) (h2 : a ≤ a1) (h3 : b0 ≤ b) (h4 : b ≤ b1) :
    prodLo a0 a1 b0 b1 ≤ a * b ∧ a * b ≤ prodHi a0 a1 b0 b1 := by
  unfold prodLo prodHi
  constructor
  · rcases le_total 0 b with hb | hb <;> rcases le_total 0 a0 with h0 | h0 <;> rcases le_total 0 a1 with h5 | h5
    all_goals first
      | exact (min_le_left _ _).trans ((min_le_left _ _).trans (by nlinarith))
      | exact (min_le_left _ _).trans ((min_le_right _ _).trans (by nlinarith))
      | exact (min_le_right _ _).trans ((min_le_left _ _).trans (by nlinarith))
      | exact (min_le_right _ _).trans ((min_le_right _ _).trans (by nlinarith))
  · rcases le_total 0 b with hb | hb <;> rcases le_total 0 a0 with h0 | h0 <;> rcases le_total 0 a1 with h5 | h5
    all_goals first
      | exact le_trans (by nlinarith) ((le_max_left _ _).trans (le_max_left _ _))
      | exact le_trans (by nlinarith) ((le_max_right _ _).trans (le_max_left _ _))
      | exact le_trans (by nlinarith) ((le_max_left _ _).trans (le_max_right _ _))
      | exact le_trans (by nlinarith) ((le_max_right _ _).trans (le_max_right _ _))

def hornerStep (a0 a1 : ℚ) (b : ℚ × ℚ) (c : ℚ) : ℚ × ℚ :=
  let l := prodLo a0 a1 b.1 b.2
  let h := prodHi a0 a1 b.1 b.2
  let s := (|c| + max |l| |h|) / 2 ^ 22 + 1 / 10 ^ 9
  (c + l - s, c + h + s)

/-- a literal of moderate size -/
theorem L_near (f : Fmt) {c : ℚ} (hc : |c| ≤ 100) : ∃ c' : ℚ, Is (L c : FV f) c' ∧ |(c':ℝ) - c| ≤ 201 / 100 * uro f * |(c:ℝ)| + 21 / 10000 * uro f := by
  have u0 := uro_pos_real f
  have u1 := uro7_real f
  have h1 := rnd_all_real f.ldbl c
  have n1 := abs_rnd_le_of_rep (f := f.ldbl) (rep_pow2_nat (n := 7)) (hc.trans (by norm_num))
  have h2 := rnd_all_real f (rnd f.ldbl c)
  have ul : (uro f.ldbl : ℝ) ≤ uro f := by exact_mod_cast uro_ldbl_le f
  have ul0 := uro_pos_real f.ldbl
  refine ⟨rnd f (rnd f.ldbl c), is_mk (nov (n1.trans (by norm_num))), ?_⟩
  generalize rnd f (rnd f.ldbl c) = A at *
  generalize rnd f.ldbl c = B at *
  have h1' : |(B:ℝ) - c| ≤ uro f * |(c:ℝ)| + uro f / 1000 := h1.trans (by gcongr)
  have a1 := abs_add_le ((A:ℝ) - B) (B - c)
  have a2 := abs_add_le ((B:ℝ) - c) c
  rw [show (A:ℝ) - B + (B - c) = A - c by ring] at a1
  rw [show (B:ℝ) - c + c = B by ring] at a2
  have : uro f * |(B:ℝ)| ≤ uro f * (|(c:ℝ)| + (uro f * |(c:ℝ)| + uro f / 1000)) := by gcongr; linarith
  have k : (uro f:ℝ) * (uro f * |(c:ℝ)| + uro f / 1000) ≤ 1 / 10 ^ 7 * (uro f * |(c:ℝ)| + uro f / 1000) := by gcongr
  have : 0 ≤ uro f * |(c:ℝ)| := by positivity
  nlinarith

theorem horner_step_real {u A P c c' m s : ℝ} (u0 : 0 ≤ u) (u1 : u ≤ 1 / 2 ^ 24) (hc : |c' - c| ≤ 201 / 100 * u * |c| + 21 / 10000 * u)
    (hm : |m - A * P| ≤ u * |A * P| + u / 1000) (hs : |s - (c' + m)| ≤ u * |c' + m| + u / 1000) :
    |s - (c + A * P)| ≤ (|c| + |A * P|) / 2 ^ 22 + 1 / 10 ^ 9 := by
  have a1 := abs_add_three (s - (c' + m)) (c' - c) (m - A * P)
  rw [show s - (c' + m) + (c' - c) + (m - A * P) = s - (c + A * P) by ring] at a1
  have a2 := abs_add_three (c' - c) (m - A * P) (c + A * P)
  rw [show c' - c + (m - A * P) + (c + A * P) = c' + m by ring] at a2
  have a3 := abs_add_le c (A * P)
  have c0 := abs_nonneg c
  have p0 := abs_nonneg (A * P)
  generalize |c| = C at *
  generalize |A * P| = Q at *
  have b1 : |c' + m| ≤ 11 / 10 * (C + Q) + 1 / 100 := by nlinarith
  have b2 : u * |c' + m| ≤ u * (11 / 10 * (C + Q) + 1 / 100) := by gcongr
  have b3 : u * (C + Q) ≤ 1 / 2 ^ 24 * (C + Q) := by gcongr
  have b4 : 0 ≤ u * Q := by positivity
  have b5 : 0 ≤ u * C := by positivity
  nlinarith

theorem horner_step_sound {a p : FV f} {A P a0 a1 c : ℚ} {b : ℚ × ℚ} (ia : Is a A) (ip : Is p P) (h1 : a0 ≤ A) (h2 : A ≤ a1)
    (h3 : b.1 ≤ P) (h4 : P ≤ b.2) (hA : |A| ≤ 4) (hP : |P| ≤ 100) (hc : |c| ≤ 100) :
    ∃ P', Is (L c + a * p) P' ∧ (hornerStep a0 a1 b c).1 ≤ P' ∧ P' ≤ (hornerStep a0 a1 b c).2 := by
  obtain ⟨c', ic, bc⟩ := L_near f hc
  have u0 := uro_pos_real f
  have u1 := uro_le f
  have u7 := uro7_real f
  have x1 : |A * P| ≤ 2 ^ 9 := by rw [abs_mul]; nlinarith [abs_nonneg A, abs_nonneg P]
  have im := ia.mul ip (nov (x1.trans (by norm_num)))
  have n1 := abs_rnd_le_of_rep (f := f) (rep_pow2_nat (n := 9)) x1
  have cc : |c'| ≤ 101 := by
    have a2 := abs_add_le ((c':ℝ) - c) c
    rw [show (c':ℝ) - c + c = c' by ring] at a2
    have hc' : |(c:ℝ)| ≤ 100 := by exact_mod_cast hc
    have : |(c':ℝ)| ≤ 101 := by nlinarith [abs_nonneg (c:ℝ)]
    exact_mod_cast this
  have x2 : |c' + rnd f (A * P)| ≤ 2 ^ 10 := by
    have := abs_add_le c' (rnd f (A * P)); norm_num at n1 ⊢; linarith
  refine ⟨_, ic.add im (nov (x2.trans (by norm_num))), ?_⟩
  have hm := rnd_all_real f (A * P)
  have hs := rnd_all_real f (c' + rnd f (A * P))
  generalize rnd f (c' + rnd f (A * P)) = S at *
  generalize rnd f (A * P) = M at *
  push_cast at hm hs
  have fin := horner_step_real u0.le (by norm_num at u1 ⊢; exact u1) bc hm hs
  have fin' : |S - (c + A * P)| ≤ (|c| + |A * P|) / 2 ^ 22 + 1 / 10 ^ 9 :=
    (Rat.cast_le (K := ℝ)).1 (by push_cast; exact fin)
  obtain ⟨l, h⟩ := prod_mem h1 h2 h3 h4
  have ab : |A * P| ≤ max |prodLo a0 a1 b.1 b.2| |prodHi a0 a1 b.1 b.2| := by
    rcases abs_cases (A * P) with ⟨e, -⟩ | ⟨e, -⟩ <;> rw [e]
    · exact (h.trans (le_abs_self _)).trans (le_max_right _ _)
    · exact ((neg_le_neg l).trans (neg_le_abs _)).trans (le_max_left _ _)
  have s1 : (|c| + |A * P|) / 2 ^ 22 + 1 / 10 ^ 9 ≤ (|c| + max |prodLo a0 a1 b.1 b.2| |prodHi a0 a1 b.1 b.2|) / 2 ^ 22 + 1 / 10 ^ 9 := by
    gcongr
  have := abs_le.1 (fin'.trans s1)
  unfold hornerStep
  simp only []
  constructor <;> linarith

def hornerAll (a0 a1 : ℚ) : List ℚ → ℚ × ℚ → Option (ℚ × ℚ)
  | [], b => some b
  | c :: cs, b =>
    if |c| ≤ 100 ∧ -100 ≤ b.1 ∧ b.2 ≤ 100 then
      let b' := hornerStep a0 a1 b c
      hornerAll a0 a1 cs b'
    else none

theorem horner_sound {a : FV f} {A a0 a1 : ℚ} (ia : Is a A) (h1 : a0 ≤ A) (h2 : A ≤ a1) (hA : |A| ≤ 4) (cs : List ℚ) :
    ∀ (p : FV f) (P : ℚ) (b b' : ℚ × ℚ), Is p P → b.1 ≤ P → P ≤ b.2 → hornerAll a0 a1 cs b = some b' →
      ∃ Q, Is (cs.foldl (fun p_term c => L c + a * p_term) p) Q ∧ b'.1 ≤ Q ∧ Q ≤ b'.2 := by
  induction cs with
  | nil =>
    intro p P b b' ip h3 h4 he
    simp only [hornerAll, Option.some.injEq] at he
    subst he
    exact ⟨P, ip, h3, h4⟩
  | cons c cs ih =>
    intro p P b b' ip h3 h4 he
    unfold hornerAll at he
    split_ifs at he with hc
    obtain ⟨P', ip', h3', h4'⟩ := horner_step_sound ia ip h1 h2 h3 h4 hA (abs_le.2 ⟨hc.2.1.trans h3, h4.trans hc.2.2⟩) hc.1
    exact ih _ P' _ b' ip' h3' h4' he

/-- bounds for the polynomial of erf_inv.hpp:76-102 for arguments in `[a0, a1]` -/
def eiPoly (a0 a1 : ℚ) : Option (ℚ × ℚ) :=
  match erf_inv_coefs_1 with
  | [] => none
  | c :: cs => hornerAll a0 a1 cs (c - (|c| / 2 ^ 22 + 1 / 10 ^ 9), c + (|c| / 2 ^ 22 + 1 / 10 ^ 9))

theorem eiPoly_sound {a : FV f} {A a0 a1 : ℚ} {b : ℚ × ℚ} (ia : Is a A) (h1 : a0 ≤ A) (h2 : A ≤ a1) (hA : |A| ≤ 4) (h : eiPoly a0 a1 = some b) :
    ∃ Q, Is (erf_inv_initial_val_case a erf_inv_coefs_1) Q ∧ b.1 ≤ Q ∧ Q ≤ b.2 := by
  unfold eiPoly erf_inv_coefs_1 at h
  unfold erf_inv_initial_val_case erf_inv_coefs_1
  simp only [] at h ⊢
  obtain ⟨c', ic, bc⟩ := L_near f (c := 2.81022636e-08) (by norm_num)
  have u1 := uro_le f
  have u0 := uro_pos_real f
  have bc' : |c' - 2.81022636e-08| ≤ |(2.81022636e-08 : ℚ)| / 2 ^ 22 + 1 / 10 ^ 9 := by
    refine (Rat.cast_le (K := ℝ)).1 ?_
    push_cast
    push_cast at bc
    refine bc.trans ?_
    have : |(2.81022636e-08 : ℝ)| = 2.81022636e-08 := abs_of_pos (by norm_num)
    rw [this]
    norm_num
    nlinarith
  have := abs_le.1 bc'
  exact horner_sound ia h1 h2 hA _ _ c' _ b ic (by simp only []; linarith) (by simp only []; linarith) h

/-- the computed starting value is within 0.8 percent on the whole cell -/
def cellOk (wa wb r0 r1 : ℚ) : Bool :=
  match eiPoly (wa - 5 / 2 - 1 / 10 ^ 5) (wb - 5 / 2 + 1 / 10 ^ 5) with
  | some (l, h) => decide (1 / 100 ≤ l) && decide (h ≤ 4) && decide (h * (1 + 1 / 2 ^ 22) ≤ 126 / 125 * r0) &&
      decide (124 / 125 * r1 ≤ l * (1 - 1 / 2 ^ 22))
  | none => false

def cellsOk : List EiNode → Bool
  | n :: m :: l => cellOk n.wa m.wb (n.ya / n.p) (m.yb / m.p) && decide (n.p ≤ m.p) && cellsOk (m :: l)
  | _ => true

theorem eiTable_cells : cellsOk eiTable = true := by decide +kernel

theorem eiTable_first : cellOk 0 (26014 / 1000000) (100000 / 112838) (142782 / 160000) = true := by decide +kernel

/-! ## The starting value in floating point -/

/-- the argument of the polynomial -/
theorem ei_arg (hf : f.exact = false) {p : ℚ} {zp : Bool} (p0 : 0 < p) (p1 : p ≤ 94 / 100) :
    ∃ (l A : ℚ) (w : Bool), log ((i 1 - (fin p zp : FV f)) * (i 1 + fin p zp)) = .ok (fin l w) ∧ -(fin l w : FV f) < i 5 ∧
      Is (-(fin l w : FV f) - d 2.5) A ∧ |(A:ℝ) - (-Real.log (1 - (p:ℝ) ^ 2) - 5 / 2)| ≤ 1 / 10 ^ 5 ∧ |A| ≤ 4 := by
  have u0 := uro_pos_real f
  have u1 := uro_le f
  have i1 : Rl (i 1 : FV f) 1 0 := by have := (is_i (f := f) (n := 1) (by norm_num)).rl (by norm_num); simpa using this
  have ip : Rl (fin p zp : FV f) p 0 := (is_fin p zp).rl p0
  have s1 : Rl (i 1 - (fin p zp : FV f)) (1 - p) 1 := i1.sub (C := 0) ip (by norm_num; linarith) (by norm_num; linarith) (by simp) (by norm_num) (by norm_num)
  have s2 : Rl (i 1 + (fin p zp : FV f)) (1 + p) 1 := i1.add (C := 0) ip (by norm_num; linarith) (by norm_num; linarith) (by simp) (by norm_num) (by norm_num)
  have q0 : 1164 / 10000 ≤ (1 - p) * (1 + p) := by nlinarith
  have q1 : (1 - p) * (1 + p) ≤ 1 := by nlinarith
  obtain ⟨-, -, M, ⟨zM, eM⟩, bM⟩ := s1.mul (c'' := 31 / 10) s2 (le_trans (by norm_num) q0) (q1.trans (by norm_num)) (by norm_num) (by norm_num)
  have vM : Valid (fin M zM : FV f) := by rw [← eM]; exact valid_mul _ _
  have bb := rl_bounds (f := f) (by linarith) (by norm_num) bM
  have M0 : 11 / 100 ≤ M := by linarith
  obtain ⟨l, w, el, bl⟩ := ib_log hf vM (le_trans (by norm_num) M0) (fun h => ib_not_ten M0 h)
  have bM' : |(M:ℝ) - (1 - (p:ℝ) ^ 2)| ≤ 32 / 10 * uro f * (1 - (p:ℝ) ^ 2) := by
    have h := (Rat.cast_le (K := ℝ)).2 bM
    unfold wro at h
    push_cast at h
    rw [show (1 - (p:ℝ)) * (1 + p) = 1 - (p:ℝ) ^ 2 by ring] at h
    refine h.trans ?_
    have : 0 ≤ 1 - (p:ℝ) ^ 2 := by
      have := (Rat.cast_le (K := ℝ)).2 q0; push_cast at this; nlinarith
    exact mul_le_mul_of_nonneg_right (by linarith) this
  have Y0 : 1164 / 10000 ≤ 1 - (p:ℝ) ^ 2 := by
    have := (Rat.cast_le (K := ℝ)).2 q0; push_cast at this; linarith
  have Y1 : 1 - (p:ℝ) ^ 2 ≤ 1 := by nlinarith [sq_nonneg (p:ℝ)]
  obtain ⟨-, lp⟩ := log_pert (by linarith) bM' (by linarith)
  have W1 : Real.log (1 - (p:ℝ) ^ 2) ≤ 0 := Real.log_nonpos (by linarith) Y1
  have W2 : -3 ≤ Real.log (1 - (p:ℝ) ^ 2) := by
    rw [Real.le_log_iff_exp_le (by linarith)]
    have h3 : Real.exp (-3) ≤ 1 / 10 := by
      rw [Real.exp_neg, inv_le_comm₀ (Real.exp_pos _) (by norm_num)]
      have := Real.quadratic_le_exp_of_nonneg (x := 3) (by norm_num)
      have e3 : Real.exp 3 = Real.exp 1 ^ 3 := by rw [← Real.exp_nat_mul]; norm_num
      rw [e3]
      have := Real.exp_one_gt_d9
      have : (27:ℝ) / 10 ≤ Real.exp 1 := by linarith
      calc ((1:ℝ) / 10)⁻¹ ≤ (27 / 10) ^ 3 := by norm_num
        _ ≤ _ := by gcongr
    linarith
  have lp' := abs_le.1 lp
  have lM : |Real.log M| ≤ 4 := abs_le.2 ⟨by linarith, by linarith⟩
  have bl' : |(l:ℝ) - Real.log M| ≤ 60 * uro f := bl.trans (by gcongr; linarith)
  have bl'' := abs_le.1 bl'
  have hl1 : (-(1 / 10):ℝ) ≤ -l := by linarith
  have hl2 : (-(l:ℝ)) ≤ 4 := by linarith
  have k1 : -(1 / 10) ≤ -l := (Rat.cast_le (K := ℝ)).1 (by push_cast; linarith)
  have k2 : -l ≤ 4 := (Rat.cast_le (K := ℝ)).1 (by push_cast; linarith)
  have i25 : Is (d 2.5 : FV f) (5 / 2) := by
    have := is_d_scaled (f := f) (q := 5 / 2) 5 (-1) (by norm_num [pow2_eq]) (by norm_num) (by norm_num) (by rw [abs_of_pos] <;> norm_num)
    rw [show (2.5:ℚ) = 5 / 2 by norm_num]; exact this
  have x : |-l - 5 / 2| ≤ 3 := abs_le.2 ⟨by linarith, by linarith⟩
  have x' := abs_rnd_le_of_rep (f := f) (rep_pow2_nat (n := 2)) (x.trans (by norm_num))
  have er := rnd_all_real f (-l - 5 / 2)
  refine ⟨l, rnd f (-l - 5 / 2), w, by rw [eM]; exact el, ?_, ((is_fin l w).neg).sub i25 (nov (x.trans (by norm_num))), ?_, x'.trans (by norm_num)⟩
  · refine (((is_fin l w).neg).lt_iff (is_i (n := 5) (by norm_num))).2 ?_
    push_cast; linarith
  · have xr : |((-l - 5 / 2 : ℚ) : ℝ)| ≤ 3 := by exact_mod_cast x
    generalize rnd f (-l - 5 / 2) = A at *
    have er' : |(A:ℝ) - ((-l - 5 / 2 : ℚ) : ℝ)| ≤ 4 * uro f := er.trans (by nlinarith)
    push_cast at er'
    have := abs_le.1 er'
    refine abs_le.2 ⟨?_, ?_⟩ <;> norm_num at u1 ⊢ <;> linarith

/-- the starting value on one cell of the table -/
theorem ei_start_cell (hf : f.exact = false) {p : ℚ} {zp : Bool} (hp : 1 / 2 ^ 100 ≤ p) (p1 : p ≤ 94 / 100) {wa wb r0 r1 : ℚ} {y : ℝ}
    (hc : cellOk wa wb r0 r1 = true) (h1 : (wa:ℝ) ≤ -Real.log (1 - (p:ℝ) ^ 2)) (h2 : -Real.log (1 - (p:ℝ) ^ 2) ≤ wb)
    (h3 : (r0:ℝ) * p ≤ y) (h4 : y ≤ r1 * p) :
    ∃ (v : ℚ) (z : Bool), erf_inv_initial_val (fin p zp : FV f) = .ok (fin v z) ∧ Valid (fin v z : FV f) ∧ |(v:ℝ) - y| ≤ y / 125 := by
  have p0 : 0 < p := lt_of_lt_of_le (by positivity) hp
  obtain ⟨l, A, w, el, lt5, iA, bA, A4⟩ := ei_arg (zp := zp) hf p0 p1
  have bA' := abs_le.1 bA
  unfold cellOk at hc
  split at hc
  case h_2 => exact absurd hc (by simp)
  case h_1 lo hi e =>
  simp only [Bool.and_eq_true, decide_eq_true_eq] at hc
  obtain ⟨⟨⟨c1, c2⟩, c3⟩, c4⟩ := hc
  have A1 : wa - 5 / 2 - 1 / 10 ^ 5 ≤ A := (Rat.cast_le (K := ℝ)).1 (by push_cast; linarith)
  have A2 : A ≤ wb - 5 / 2 + 1 / 10 ^ 5 := (Rat.cast_le (K := ℝ)).1 (by push_cast; linarith)
  obtain ⟨P, iP, P1, P2⟩ := eiPoly_sound iA A1 A2 A4 e
  simp only [] at P1 P2
  have P0 : 0 < P := lt_of_lt_of_le (by norm_num) (c1.trans P1)
  have x : |p * P| ≤ 4 := by rw [abs_of_pos (by positivity)]; nlinarith
  obtain ⟨z, ev⟩ := (is_fin (f := f) p zp).mul iP (nov (x.trans (by norm_num)))
  refine ⟨rnd f (p * P), z, ?_, by rw [← ev]; exact valid_mul _ _, ?_⟩
  · unfold erf_inv_initial_val
    rw [el]
    change (erf_inv_initial_val_int (-(fin l w : FV f)) >>= fun v => Except.ok ((fin p zp : FV f) * v)) = _
    unfold erf_inv_initial_val_int
    rw [if_pos lt5, ← ev]
    rfl
  · have mn : minNormal f ≤ |p * P| := by
      rw [abs_of_pos (by positivity)]
      refine (minNormal_le' f).trans ?_
      have : (1:ℚ) / 2 ^ 25 ≤ P := le_trans (by norm_num) (c1.trans P1)
      calc (1:ℚ) / 2 ^ 125 = 1 / 2 ^ 100 * (1 / 2 ^ 25) := by norm_num
        _ ≤ p * P := by gcongr
    have er := rnd_err_rel mn
    rw [abs_of_pos (show 0 < p * P by positivity)] at er
    have ul : uro f ≤ 1 / 2 ^ 22 := (uro_le_rat f).trans (by norm_num)
    have er2 : uro f * (p * P) ≤ 1 / 2 ^ 22 * (p * P) := by gcongr
    have er' := abs_le.1 (er.trans er2)
    have pr : (0:ℝ) < p := by exact_mod_cast p0
    have v2 : ((rnd f (p * P) : ℚ):ℝ) ≤ 126 / 125 * (r0 * p) := by
      have : rnd f (p * P) ≤ 126 / 125 * (r0 * p) := by
        have a1 : rnd f (p * P) ≤ p * (P * (1 + 1 / 2 ^ 22)) := by linarith
        have a2 : p * (P * (1 + 1 / 2 ^ 22)) ≤ p * (126 / 125 * r0)  :=
          mul_le_mul_of_nonneg_left (le_trans (by gcongr) c3) p0.le
        linarith
      have := (Rat.cast_le (K := ℝ)).2 this
      push_cast at this
      exact this
    have v1 : 124 / 125 * (r1 * p) ≤ ((rnd f (p * P) : ℚ):ℝ) := by
      have : 124 / 125 * (r1 * p) ≤ rnd f (p * P) := by
        have a1 : p * (P * (1 - 1 / 2 ^ 22)) ≤ rnd f (p * P) := by linarith
        have a2 : p * (124 / 125 * r1) ≤ p * (P * (1 - 1 / 2 ^ 22))  :=
          mul_le_mul_of_nonneg_left (c4.trans (mul_le_mul_of_nonneg_right P1 (by norm_num))) p0.le
        linarith
      have := (Rat.cast_le (K := ℝ)).2 this
      push_cast at this
      exact this
    refine abs_le.2 ⟨by linarith, by linarith⟩

theorem log_anti {p q : ℝ} (h0 : 0 ≤ p) (h : p ≤ q) (h1 : q < 1) : -Real.log (1 - p ^ 2) ≤ -Real.log (1 - q ^ 2) := by
  have : Real.log (1 - q ^ 2) ≤ Real.log (1 - p ^ 2) := Real.log_le_log (by nlinarith) (by nlinarith)
  linarith

/-- the starting value between two points of the table -/
theorem ei_start_table (hf : f.exact = false) {p : ℚ} {zp : Bool} (hp : 1 / 2 ^ 100 ≤ p) (p1 : p ≤ 94 / 100) {y : ℝ} (y0 : 0 < y) (hy : erfR y = p) :
    ∀ (l : List EiNode) (n : EiNode), (n :: l).all EiNode.ok = true → cellsOk (n :: l) = true → n.p ≤ p → p ≤ ((n :: l).getLast (by simp)).p →
      p = n.p ∨ ∃ (v : ℚ) (z : Bool), erf_inv_initial_val (fin p zp : FV f) = .ok (fin v z) ∧ Valid (fin v z : FV f) ∧ |(v:ℝ) - y| ≤ y / 125 := by
  intro l
  induction l with
  | nil =>
    intro n _ _ h1 h2
    left
    exact le_antisymm h2 h1
  | cons m l ih =>
    intro n hok hcell h1 h2
    simp only [List.all_cons, Bool.and_eq_true] at hok
    obtain ⟨n1, n2, n3, n4, n5, n6, n7, n8⟩ := EiNode.sound hok.1
    obtain ⟨m1, m2, m3, m4, m5, m6, m7, m8⟩ := EiNode.sound hok.2.1
    unfold cellsOk at hcell
    simp only [Bool.and_eq_true, decide_eq_true_eq] at hcell
    right
    rcases le_or_gt p m.p with h | h
    · have np : (0:ℝ) < n.p := by exact_mod_cast n1
      have mp : (0:ℝ) < m.p := by exact_mod_cast m1
      have pn : (n.p:ℝ) ≤ p := by exact_mod_cast h1
      have pm : (p:ℝ) ≤ m.p := by exact_mod_cast h
      have pp : (0:ℝ) < p := lt_of_lt_of_le np pn
      have yn : (n.ya:ℝ) ≤ y := le_of_erfR_le (by rw [hy]; exact n5.trans pn)
      have ym : y ≤ m.yb := le_of_erfR_le (by rw [hy]; exact pm.trans m6)
      have a0 : (0:ℝ) < n.ya := by exact_mod_cast n3
      refine ei_start_cell hf hp p1 hcell.1.1 (n7.trans (log_anti np.le pn (lt_of_le_of_lt pm (by exact_mod_cast m2))))
        ((log_anti pp.le pm (by exact_mod_cast m2)).trans m8) ?_ ?_
      · push_cast
        rw [div_mul_eq_mul_div, div_le_iff₀ np]
        have r := erfR_ratio a0.le yn
        rw [hy] at r
        nlinarith
      · push_cast
        rw [div_mul_eq_mul_div, le_div_iff₀ mp]
        have r := erfR_ratio y0.le ym
        rw [hy] at r
        nlinarith
    · rcases ih m (by simp only [List.all_cons, Bool.and_eq_true]; exact hok.2) hcell.2 h.le (by simpa using h2) with e | e
      · exact absurd e h.ne'
      · exact e

theorem ei_start (hf : f.exact = false) {p : ℚ} {zp : Bool} (hp : 1 / 2 ^ 100 ≤ p) (p1 : p ≤ 94 / 100) {y : ℝ} (y0 : 0 < y) (hy : erfR y = p) :
    ∃ (v : ℚ) (z : Bool), erf_inv_initial_val (fin p zp : FV f) = .ok (fin v z) ∧ Valid (fin v z : FV f) ∧ |(v:ℝ) - y| ≤ y / 125 := by
  have p0 : 0 < p := lt_of_lt_of_le (by positivity) hp
  have pp : (0:ℝ) < p := by exact_mod_cast p0
  rcases le_or_gt p (16 / 100) with h | h
  · have ok : EiNode.ok ⟨1600/10000, 142738/1000000, 142782/1000000, 25853/1000000, 26014/1000000⟩ = true := by decide +kernel
    obtain ⟨-, -, -, -, -, m6, -, m8⟩ := EiNode.sound ok
    have pm : (p:ℝ) ≤ ((1600 / 10000 : ℚ) : ℝ) := by exact_mod_cast h.trans (by norm_num)
    have ym : y ≤ ((142782/1000000 : ℚ) : ℝ) := le_of_erfR_le (by rw [hy]; exact pm.trans m6)
    refine ei_start_cell hf hp p1 eiTable_first ?_ ((log_anti pp.le pm (by norm_num)).trans m8) ?_ ?_
    · have := Real.log_nonpos (x := 1 - (p:ℝ) ^ 2) (by push_cast at pm; nlinarith) (by nlinarith)
      push_cast; linarith
    · have h5 := erfR_le_lin y0.le
      have h6 : 2 / Real.sqrt Real.pi * y ≤ 112838 / 100000 * y := by have := erfC_le; gcongr
      rw [hy] at h5
      push_cast
      linarith
    · have r := erfR_ratio y0.le ym
      rw [hy] at r
      have : ((1600 / 10000 : ℚ) : ℝ) * y ≤ erfR ((142782/1000000 : ℚ) : ℝ) * y := by gcongr
      push_cast at this r ⊢
      linarith
  · have ht := eiTable_ok
    have hc := eiTable_cells
    unfold eiTable at ht hc
    rcases ei_start_table (zp := zp) hf hp p1 y0 hy _ _ ht hc (by norm_num; linarith) (by simp only [List.getLast_cons_cons, List.getLast_singleton]; linarith) with e | e
    · norm_num at e; norm_num at h; linarith
    · exact e

end Gcem.Props
