import Mathlib.Data.Rat.Defs
import Mathlib.Algebra.Field.Rat

/-!
The literals of `math/constants.hpp`, as exact rationals.  `static_cast<T>` (rounding to the
floating-point type) is not modelled.
-/

set_option autoImplicit false

namespace Verif.Math.Lit

/-- e: constants.hpp 5-8. -/
def e_v : ℚ := 2.7182818284590452353602874713526624977572470936999595749669676277240766303535475

/-- e^2: constants.hpp 10-13. -/
def e_sqr_v : ℚ := 7.3890560989306502272304274605750078131803155705518473240871278225225737960790577

/-- e^π: constants.hpp 15-18. -/
def e_pow_pi_v : ℚ := 23.140692632779269005729086367948547380266106242600211993445046409524342350690452

/-- π: constants.hpp 20-23. -/
def pi_v : ℚ := 3.1415926535897932384626433832795028841971693993751058209749445923078164062862089

/-- 2π: constants.hpp 25-28. -/
def two_pi_v : ℚ := 6.2831853071795864769252867665590057683943387987502116419498891846156328125724179

/-- 2/π: constants.hpp 30-33. -/
def two_over_pi_v : ℚ := 0.6366197723675813430755350534900574481378385829618257949906693762355871905369061

/-- π/2: constants.hpp 35-38. -/
def pi_over_two_v : ℚ := 1.5707963267948966192313216916397514420985846996875529104874722961539082031431044

/-- π^2: constants.hpp 40-43. -/
def pi_sqr_v : ℚ := 9.8696044010893586188344909998761511353136994072407906264133493762200448224192052

/-- 1/π: constants.hpp 45-48. -/
def inv_pi_v : ℚ := 0.3183098861837906715377675267450287240689192914809128974953346881177935952684530

/-- τ: constants.hpp 50-52. -/
def tau_v : ℚ := two_pi_v

/-- log2(e): constants.hpp 54-57. -/
def log2_e_v : ℚ := 1.4426950408889634073599246810018921374266459541529859341354494069311092191811850

/-- log10(e): constants.hpp 59-62. -/
def log10_e_v : ℚ := 0.4342944819032518276511289189166050822943970058036665661144537831658646492088707

/-- ln(2): constants.hpp 64-67. -/
def ln_two_v : ℚ := 0.6931471805599453094172321214581765680755001343602552541206800094933936219696947

/-- ln(10): constants.hpp 69-72. -/
def ln_ten_v : ℚ := 2.3025850929940456840179914546843642076011014886287729760333279009675726096773524

/-- sqrt(2): constants.hpp 74-77. -/
def sqrt_two_v : ℚ := 1.4142135623730950488016887242096980785696718753769480731766797379907324784621070

/-- sqrt(3): constants.hpp 79-82. -/
def sqrt_three_v : ℚ := 1.7320508075688772935274463415058723669428052538103806280558069794519330169088000

/-- sqrt(5): constants.hpp 84-87. -/
def sqrt_five_v : ℚ := 2.2360679774997896964091736687312762354406183596115257242708972454105209256378048

/-- sqrt(e): constants.hpp 89-92. -/
def sqrt_e_v : ℚ := 1.6487212707001281468486507878141635716537761007101480115750793116406610211942156

/-- sqrt(pi): constants.hpp 94-97. -/
def sqrt_pi_v : ℚ := 1.7724538509055160272981674833411451827975494561223871282138077898529112845910321

/-- sqrt(2π): constants.hpp 99-102. -/
def sqrt_two_pi_v : ℚ := 2.5066282746310005024157652848110452530069867406099383166299235763422936546078419

/-- sqrt(2πe): constants.hpp 104-107. -/
def sqrt_two_pi_e_v : ℚ := 4.1327313541224929384693918842998526494455219169913084515566512537979579285134170

/-- 1/sqrt(π): constants.hpp 109-112. -/
def inv_sqrt_pi_v : ℚ := 0.5641895835477562869480794515607725858440506293289988568440857217106424684414934

/-- cbrt(2): constants.hpp 114-117. -/
def cbrt_two_v : ℚ := 1.2599210498948731647672106072782283505702514647015079800819751121552996765139594

/-- Reciprocal fibonacci constant: constants.hpp 119-122. -/
def inv_fibonacci_v : ℚ := 3.3598856662431775531720113029189271796889051337319684864955538153251303189966833

/-- ϕ (Golden ratio): constants.hpp 124-127. -/
def phi_v : ℚ := 1.6180339887498948482045868343656381177203091798057628621354486227052604628189024

/-- Catalan's constant: constants.hpp 129-132. -/
def catalan_v : ℚ := 0.9159655941772190150546035149323841107741493742816721342664981196217630197762547

/-- γ (Euler-Mascheroni constant): constants.hpp 134-137. -/
def euler_v : ℚ := 0.5772156649015328606065120900824024310421593359399235988057672348848677267776646

/-- G (Gauss constant): constants.hpp 139-142. -/
def gauss_v : ℚ := 0.8346268416740731862814297327990468089939930134903470024498273701036819927095264

/-- ρ (Plastic number): constants.hpp 144-147. -/
def plastic_v : ℚ := 1.3247179572447460259609088544780973407344040569017333645340150503028278512455475

/-- ζ(2): constants.hpp 149-152. -/
def zeta_two_v : ℚ := 1.6449340668482264364724151666460251892189499012067984377355582293700074704032008

/-- ζ(3): constants.hpp 154-157. -/
def zeta_three_v : ℚ := 1.2020569031595942853997381615114499907649862923404988817922715553418382057863130

/-- ζ(4): constants.hpp 159-162. -/
def zeta_four_v : ℚ := 1.0823232337111381915160036965411679027747509519187269076829762154441206161869688

end Verif.Math.Lit
