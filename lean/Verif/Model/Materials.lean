import Mathlib.Data.Rat.Floor

/- Model of the tables of materials of /repo/tomopt/core.py. The values are those written in the source; python rounds them to double precision. -/
namespace Tomopt

/-- core.py 21-45 `X0`: radiation lengths in metres -/
def x0Table : List (String × ℚ) :=
  [("beryllium", 0.3528), ("graphite", 0.1932), ("silicon", 0.0937), ("aluminium", 0.08897), ("iron", 0.01757), ("copper", 0.01436),
   ("lead", 0.005612), ("uranium", 3.141e-3), ("air", 303.9), ("water", 0.3608), ("SiO2", 0.1229), ("Al2O3", 0.07038),
   ("Fe2O3", 0.03242), ("MgO", 0.07828), ("CaO", 0.05760), ("toluene", 0.5068), ("benzene", 0.4984), ("K2O", 0.08147),
   ("Na2O", 0.1285), ("soft tissue", 0.3763), ("steel", 0.01782), ("hot liquid steel", 0.01991), ("slag", 0.08211)]

/-- core.py 47-64 `DENSITIES`: kg/m^3 -/
def densityTable : List (String × ℚ) :=
  [("water", 1000.0), ("SiO2", 2200.0), ("Al2O3", 3970.0), ("Fe2O3", 5200.0), ("MgO", 3580.0), ("CaO", 3300.0),
   ("graphite", 2210.0), ("air", 1.205), ("toluene", 866.9), ("benzene", 878.7), ("K2O", 2320.0), ("Na2O", 2270.0),
   ("soft tissue", 1000.0), ("steel", 7818.0), ("hot liquid steel", 7000.0), ("slag", 2700.0)]

end Tomopt
