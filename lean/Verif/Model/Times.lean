import Verif.Model.Base

/-!
# `TimesConfig` and its factories

Models `/repo/include/mimic++/ControlPolicy.hpp` 49-86 and 292-382.
-/

set_option autoImplicit false

namespace Mimic

/-- ControlPolicy.hpp 49-86: `class TimesConfig`. The default member initialisers `m_Min{1}`,
`m_Max{1}` (84-85) are the field defaults. -/
structure TimesConfig where
  min : Int := 1
  max : Int := 1
deriving DecidableEq, Repr

/-- ControlPolicy.hpp 56-69: the constructor `TimesConfig(int min, int max)`. `none` stands for the
thrown `std::invalid_argument`. -/
def TimesConfig.make (min max : Int) : Option TimesConfig :=
  if min < 0 ∨ max < 0 ∨ max < min then none
  else some { min := min, max := max }

/-- ControlPolicy.hpp 291-295: `expect::times(min, max)`. -/
def times (min max : Int) : Option TimesConfig := TimesConfig.make min max

/-- ControlPolicy.hpp 306-310: `expect::times(exactly)`. -/
def timesExactly (exactly : Int) : Option TimesConfig := TimesConfig.make exactly exactly

/-- ControlPolicy.hpp 321-328: `expect::at_least(min)`. -/
def atLeast (min : Int) : Option TimesConfig := TimesConfig.make min intMax

/-- ControlPolicy.hpp 339-346: `expect::at_most(max)`. -/
def atMost (max : Int) : Option TimesConfig := TimesConfig.make 0 max

/-- ControlPolicy.hpp 355-364: `expect::once()`. The `consteval` constructor call is evaluated at
compile time; were it to throw, compilation would fail. -/
def once : Option TimesConfig := TimesConfig.make 1 1

/-- ControlPolicy.hpp 373-382: `expect::twice()`. -/
def twice : Option TimesConfig := TimesConfig.make 2 2

/-- ExpectationBuilder.hpp 264-287: `make_expectation_builder` starts every builder with
`TimesConfig{}`. -/
def defaultTimes : TimesConfig := {}

end Mimic
