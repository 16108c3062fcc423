import Verif.Model.DoubleStats
/-!
# The scores of the filter feature selectors in `double` arithmetic

The scores of `Model/Select` with every operation carried out as in `Model/Double`.  A feature is given by its values and the
labels of the samples.  `std::sqrt` is a parameter, `std::pow(v, 2)` is the correctly rounded square.
-/
namespace MLTK.Fp

/-- One sample in the loop of the averages: number and sum of the negative and of the other samples.
Models Golub.hpp:54-62, Fisher.hpp:63-71. -/
def scoreSum (s : (Nat × Dbl) × (Nat × Dbl)) (xy : Dbl × Int) : (Nat × Dbl) × (Nat × Dbl) :=
  if xy.2 = -1 then ((s.1.1 + 1, s.1.2.add xy.1), s.2) else (s.1, (s.2.1 + 1, s.2.2.add xy.1))

/-- One sample in the loop of the standard deviations.  Models Golub.hpp:72-76, Fisher.hpp:81-85. -/
def scoreDev (an ap : Dbl) (s : Dbl × Dbl) (xy : Dbl × Int) : Dbl × Dbl :=
  if xy.2 = -1 then (s.1.add ((xy.1.sub an).mul (xy.1.sub an)), s.2) else (s.1, s.2.add ((xy.1.sub ap).mul (xy.1.sub ap)))

/-- Averages and standard deviations of one feature; `num_neg - 1` and `num_pos - 1` are unsigned.
Models Golub.hpp:49-79, Fisher.hpp:58-88. -/
def scoreMoments (sqrt : Dbl → Dbl) (col : List (Dbl × Int)) : (Dbl × Dbl) × (Dbl × Dbl) :=
  let s := col.foldl scoreSum ((0, .fin 0), (0, .fin 0))
  let an := s.1.2.div (.ofNat s.1.1)
  let ap := s.2.2.div (.ofNat s.2.1)
  let d := col.foldl (scoreDev an ap) (.fin 0, .fin 0)
  ((an, ap), (sqrt (d.1.div (.ofNat ((s.1.1 + (2 ^ 64 - 1)) % 2 ^ 64))), sqrt (d.2.div (.ofNat ((s.2.1 + (2 ^ 64 - 1)) % 2 ^ 64)))))

/-- `fabs(avg_pos - avg_neg) / (sd_pos + sd_neg)`.  Models Golub.hpp:85. -/
def golub (sqrt : Dbl → Dbl) (col : List (Dbl × Int)) : Dbl :=
  let m := scoreMoments sqrt col
  (m.1.2.sub m.1.1).abs.div (m.2.2.add m.2.1)

/-- `pow(avg_pos - avg_neg, 2) / (sd_pos + sd_neg)`.  Models Fisher.hpp:94. -/
def fisher (sqrt : Dbl → Dbl) (col : List (Dbl × Int)) : Dbl :=
  let m := scoreMoments sqrt col
  ((m.1.2.sub m.1.1).mul (m.1.2.sub m.1.1)).div (m.2.2.add m.2.1)

end MLTK.Fp
