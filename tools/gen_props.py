#!/usr/bin/env python3
"""Source of /verif/properties.jsonl (run from /verif)."""
import json
P=[]
def p(title, statement, quantifier, why, *anchors):
    P.append(dict(id=f"C{len(P)+1:02d}", title=title, statement=statement, quantifier=quantifier, why_tests_cant=why, anchors=list(anchors)))
PO="src/algebra/polynomial.rs"; CX="src/algebra/complex.rs"; RI="src/algebra/ring.rs"; DV="src/linalg/dvector.rs"; DM="src/linalg/dmatrix.rs"
SV="src/linalg/svector.rs"; SM="src/linalg/smatrix.rs"; DE="src/optimize/differential_evolution.rs"; TF="src/optimize/test_functions.rs"; FN="src/functions"

# ---- polynomials
p("Polynomial evaluation is the power sum",
  "If Polynomial::from_coefficients(a).eval(x) (or eval_ref) returns y, then y is a[0] + a[1]*x + a[2]*x^2 + ... + a[n-1]*x^(n-1), with the coefficient on the left of the power; the empty polynomial evaluates to zero; and when the element type's operations never panic neither does eval.",
  "every element type implementing Ring (also non-commutative ones), every coefficient vector of any length, every x",
  "the degree, the coefficients and the element type are unbounded; tests only try 1+2x+3x^2 over i32",
  f"{PO}: Polynomial::eval_ref, Polynomial::eval")
p("All polynomial addition operators agree and add coefficients",
  "p + q, p += q and p += &q all produce the polynomial whose number of coefficients is the maximum of both and whose k-th coefficient is the sum of the k-th coefficients (missing ones count as zero), in either operand order and for any combination of lengths; hence (p+q)(x) = p(x)+q(x).",
  "every pair of polynomials of any two lengths over any Ring element type",
  "three separate code paths (swap, push, resize) each with a length case split; the tests only use equal lengths",
  f"{PO}: Add for Polynomial, AddAssign for Polynomial, AddAssign<&Polynomial>")
p("Polynomial subtraction and negation agree and act per coefficient",
  "p - q, p -= q and p -= &q all produce max-length coefficient-wise differences, and -p negates each coefficient keeping the length; hence (p-q)(x) = p(x)-q(x) and (-p)(x) = -(p(x)).",
  "every pair of polynomials of any two lengths over any Ring element type",
  "unequal lengths, empty operands and the two different implementations (via negation, or in place) are not exercised by the tests",
  f"{PO}: Sub, SubAssign, SubAssign<&Polynomial>, Neg")
p("Polynomial multiplication is the Cauchy product",
  "p * q, p *= q, &p * &q and p.mul_refs(&q) agree: the result is empty if either operand is, otherwise it has len(p)+len(q)-1 coefficients, coefficient k being the sum over i+j=k of p[i]*q[j] (in this order). No index is ever out of bounds.",
  "every pair of polynomials of any two lengths over any Ring element type, commutative or not",
  "a double loop over unbounded lengths with computed index i+j; only one product of a 3-term by a 2-term polynomial is tested",
  f"{PO}: Mul for &Polynomial, Mul for Polynomial, MulAssign for Polynomial")
p("Evaluation is multiplicative exactly when it can be",
  "(p*q)(x) = p(x)*q(x) whenever x commutes with every coefficient of q - in particular for every commutative element type - and there are square matrices for which it fails.",
  "every pair of polynomials, every element x commuting with the coefficients of the right factor",
  "depends on a commutation condition over all coefficients; the failure needs a non-commutative element type which no test uses",
  f"{PO}: Mul for &Polynomial, eval_ref", f"{SM}: Ring for SMatrix<T,N,N>")
p("Coefficient vectors form a commutative semiring under ==",
  "With the derived ==: addition is associative and commutative with neutral element Polynomial::zero(); multiplication is associative, distributes over addition from both sides, has neutral element Polynomial::one(), is commutative if the element type is, and multiplying by zero() gives zero(). No trailing-zero mismatch can occur in any of these laws.",
  "all triples of polynomials of any lengths (empty ones included)",
  "laws over all triples, including all empty / non-empty combinations",
  f"{PO}: Add, Mul, Zero, One, derive(PartialEq)")
p("p - p == zero() holds only for the empty polynomial (Ring law broken under ==)",
  "The Ring documentation promises an abelian group under addition, but with the derived == the polynomial p + (-p) equals Polynomial::zero() if and only if p has no coefficients at all; it is always the all-zero coefficient vector of p's length. Two polynomials denote the same formal polynomial exactly when their coefficient vectors agree after dropping trailing zeros.",
  "every polynomial over any Ring element type",
  "a negative result about an equality on all polynomials; tests never compare p - p with zero()",
  f"{PO}: derive(PartialEq), Sub, Zero", f"{RI}: Ring")
# ---- integers
p("Overflow-checked integers: exact or panic",
  "In a build with overflow checks, every polynomial, complex, vector and matrix computation over i8..i128/isize (and over any nesting of those containers) either panics or returns exactly the result of the same computation over the unbounded integers.",
  "every integer width, every input, every operation of the Ring interface of Polynomial, Complex, SMatrix and their nestings",
  "the input space is astronomically large and the claim includes all intermediate overflows",
  f"{RI}: Ring for i8..isize", f"{PO}: Polynomial", f"{CX}: Complex", f"{SM}: SMatrix")
p("Wrapping integers: exact modulo 2^w, never a panic",
  "In a build without overflow checks the same computations never panic and return the exact integer result reduced modulo 2^w, no matter which intermediate results wrapped; all commutative-ring identities hold exactly.",
  "every integer width, every input, every operation of the Ring interface of Polynomial, Complex, SMatrix and their nestings",
  "needs all overflowing inputs; overflow panics in test builds",
  f"{RI}: Ring for i8..isize", f"{PO}: Polynomial", f"{CX}: Complex", f"{SM}: SMatrix")
p("Ring nesting: every container over a lawful ring is a lawful ring",
  "Given an element type whose operations implement a mathematical ring R, the operations of Complex<T> implement R[i], those of Polynomial<T> implement R[X] and those of SMatrix<T,N,N> implement the N x N matrices over R; so any nesting (e.g. polynomials over complex matrices of polynomials) again implements the corresponding mathematical ring.",
  "every lawful element type, every nesting depth, every matrix size N (0 included)",
  "quantifies over all types built by nesting",
  f"{RI}: Ring", f"{PO}: Ring for Polynomial", f"{CX}: Ring for Complex", f"{SM}: Ring for SMatrix<T,N,N>")
# ---- complex arithmetic
p("Complex numbers over a commutative ring form a commutative ring",
  "For exact element arithmetic, Complex<T>'s +, -, *, unary -, zero() and one() satisfy all commutative ring laws under ==, and i*i = -1.",
  "all triples of complex numbers over every commutative Ring element type",
  "laws over all triples and all element types; tests only compute (1+2i)^2",
  f"{CX}: Add, Sub, Mul, Neg, Zero, One for Complex")
p("By-value, in-place, by-reference and scalar operators of Complex agree",
  "a+b, a+=b, a+=&b give the same value; likewise -, and a*b, a*=b, &a*&b; and z*s for a real s equals z times Complex::new(s, 0).",
  "all pairs of complex numbers, every element type",
  "every operator is a separate implementation; tests check one literal each",
  f"{CX}: AddAssign, SubAssign, Mul<T>, MulAssign, Mul for &Complex")
p("Conjugation and squared norm",
  "conj is an involution and distributes over + and *; z * z.conj() has real part sqr_norm(z) and imaginary part zero; sqr_norm(a*b) = sqr_norm(a)*sqr_norm(b); over an ordered ring sqr_norm is non-negative and zero only for zero().",
  "all complex numbers over every commutative Ring element type",
  "identities over all pairs of numbers",
  f"{CX}: Conj for Complex, sqr_norm")
p("Complex division inverts multiplication",
  "For a field of scalars, (a / b) * b = a and (a*b)/b = a whenever sqr_norm(b) is non-zero; for real scalars this is every b different from zero.",
  "all pairs a, b with sqr_norm(b) != 0",
  "all divisors; tests only divide by 1+i",
  f"{CX}: Div for &Complex, Div for Complex")
p("All division operators agree",
  "a/b and &a/&b agree; &z/&s, z/&s and z/s agree, divide both parts by s, and for s != 0 equal z / Complex::new(s, 0). Integer division of a Complex by a zero scalar always panics.",
  "all complex numbers and scalars",
  "five separate implementations over all inputs, incl. the panic case",
  f"{CX}: Div<Self> for &Complex, Div, Div<&T> for &Complex, Div<&T>, Div<T>")
p("Complex<T> is a field only if -1 is not a square ratio",
  "The library declares Complex<T>: Field for every field T. The quotient (a/b)*b = a holds for all b != zero() if and only if x*x + y*y = 0 has no non-trivial solution in T; for T = Complex<real> it does fail, as Complex<Complex<T>> has zero divisors.",
  "every scalar field T",
  "a negative claim requiring a characterisation over all fields",
  f"{CX}: Field for Complex")
# ---- elementary functions
p("Complex exp is the complex exponential",
  "In exact real arithmetic Complex::exp returns e^z; so exp(a+b) = exp(a)*exp(b), exp(z) is never zero, |exp(z)| = exp(re z), and exp(conj z) = conj(exp z).",
  "every complex number",
  "all inputs; one test point",
  f"{CX}: Exp for Complex", f"{FN}/exp.rs, sin.rs, cos.rs")
p("Complex sin, cos, sinh, cosh, tan are the analytic functions",
  "In exact real arithmetic these methods return the mathematical complex sine, cosine, hyperbolic sine, hyperbolic cosine and (where cos z != 0) tangent; so sin^2+cos^2 = 1 and cosh^2-sinh^2 = 1 for every z.",
  "every complex number (cos z != 0 for tan)",
  "all inputs; tests use one point each (100 random ones for tan)",
  f"{CX}: Sin, Cos, Sinh, Cosh, Tan for Complex")
p("Complex ln is the principal logarithm",
  "In exact real arithmetic, for z != 0, exp(ln z) = z, the imaginary part of ln z lies in (-pi, pi], its real part is ln|z|, and ln(exp z) = z when im z is in (-pi, pi].",
  "every non-zero complex number",
  "all inputs incl. the branch cut",
  f"{CX}: Ln for Complex", f"{FN}/log.rs, atan2.rs")
p("Complex sqrt is the principal square root",
  "In exact real arithmetic s = z.sqrt() satisfies s*s = z, s.re >= 0, and s.im >= 0 if s.re = 0; both branches of the implementation give the same value, no branch divides by zero or takes the root of a negative number.",
  "every complex number, on both sides of the internal branch threshold and both signs of both parts",
  "three-way branch over the whole plane; 100 random points tested",
  f"{CX}: Sqrt for Complex")
p("abs and arg are polar coordinates",
  "In exact real arithmetic, abs(z) >= 0, abs(z) = 0 only for zero, abs(a*b) = abs(a)*abs(b), the triangle inequality holds, arg(z) lies in [-pi, pi] and z = abs(z)*(cos(arg z) + i sin(arg z)).",
  "every complex number",
  "all inputs",
  f"{CX}: Abs for Complex, Abs for &Complex, arg", f"{FN}/atan2.rs, sqrt.rs")
# ---- static vectors/matrices
p("SVector is a module with a bilinear dot product",
  "For every DIM (0 included): +, - (by value, by reference, in place) act per entry and agree; u*s, u*&s, u*=s, u*=&s multiply each entry by s on the right; u*v is the sum of u[i]*v[i], is additive in both arguments and symmetric for commutative scalars; zero() is neutral. Nothing panics if the scalar operations do not.",
  "every dimension, all vectors, every element type",
  "all dimensions and values; tests use DIM 2",
  f"{SV}: Add, Sub, Mul, MulAssign, Zero for SVector")
p("SMatrix product is the matrix product",
  "(a*b)[l][n] is the sum over m of a[l][m]*b[m][n] for all shapes L x M x N; multiplication is associative and distributes over +; SMatrix::one() is a left and right identity and has ones exactly on the diagonal also for non-square shapes; a*b, &a*&b, a*=b and a*=&b agree; no index is out of bounds.",
  "all shapes L, M, N (zero included), all entries, every element type",
  "all shapes and values; closures with hand-maintained counters",
  f"{SM}: Mul, MulAssign, One, Zero for SMatrix")
p("SMatrix sums, differences, negation and conjugation act per entry",
  "+, - (by value, by reference, in place) act per entry and agree, unary minus negates and conj conjugates every entry; (a*b).conj() = a.conj()*b.conj() for commutative scalars with multiplicative conjugation.",
  "all shapes, all entries",
  "all shapes and values",
  f"{SM}: Add, Sub, AddAssign, SubAssign, Neg, Conj for SMatrix")
p("Matrix times vector is compatible with matrix times matrix",
  "(&m * &v)[i] is the sum over j of m[i][j]*v[j]; (&a * &b) applied to v equals a applied to (b applied to v); one() applied to v is v; the map is additive in v.",
  "all shapes, all entries",
  "all shapes and values",
  f"{SM}: Mul<&SVector> for &SMatrix")
# ---- dynamic expressions
p("eval of any vector or matrix expression tree equals entry-wise evaluation",
  "Build any expression by nesting the public combinators (+, -, map, zip, mul_elemwise, div_elemwise, conj, t, h, diag, zeros, ones, same, eye, make_*_expr, products of evaluated matrices, arrays, slices, evaluated vectors/matrices by value or by reference). If construction and eval return, the result has the shape given by ordinary linear algebra and each entry is the value ordinary linear algebra gives; the specialised eval overrides are indistinguishable from the default one.",
  "every expression tree of any depth, all shapes, all leaf values",
  "unbounded trees; several types override eval",
  f"{DV}: VectorExpr and all impls, VectorExprWrapper", f"{DM}: MatrixExpr and all impls, MatrixExprWrapper")
p("Binary element-wise operations panic exactly on shape mismatch",
  "a + b, a - b, zip, mul_elemwise, div_elemwise (on wrappers and on &DVector / &DMatrix) panic at construction if and only if the shapes differ; &a * &b panics if and only if a.num_cols() != b.num_rows().",
  "all pairs of expressions of all shapes",
  "no panic test exists; all shape pairs",
  f"{DV}: zip, Add, Sub", f"{DM}: zip, Add, Sub, Mul for &DMatrix")
p("Row-major storage round trip",
  "For every matrix expression m with r rows and c columns whose entries evaluate, m.eval() stores exactly r*c elements, has the same shape, and eval()[[i,j]] = eval().entry(i,j) = m.entry(i,j) for i<r, j<c; nested arrays flatten in row order. Every DMatrix obtainable through the API satisfies this storage invariant after any history of index writes, += and -=.",
  "all shapes, all entries, all histories of mutating operations",
  "unbounded shapes and histories",
  f"{DM}: MatrixExpr::eval, DMatrix, Index, IndexMut, AddAssign, SubAssign")
p("Out-of-range indexing of DMatrix is not always rejected",
  "A DMatrix access with row >= num_rows panics (unless the index product wraps in a build without overflow checks), but an access with an in-range row and col >= num_cols returns an element of a later row instead of panicking whenever row*num_cols+col is smaller than the number of stored elements.",
  "all matrices and index pairs",
  "tests only use valid indices",
  f"{DM}: Index<[usize;2]>, IndexMut, DMatrix::entry")
p("Index writes are point updates",
  "After v[i] = x on a DVector or SVector, or m[[r,c]] = x on a DMatrix with r, c in range, reading that position gives x, every other position and the shape are unchanged; out-of-range vector indices panic and change nothing. Any history of writes reads back like a map from positions to the last value written.",
  "all sizes, positions and write histories",
  "unbounded histories",
  f"{DV}: Index, IndexMut", f"{SV}: Index, IndexMut", f"{DM}: Index, IndexMut")
p("Transpose and Hermitian transpose",
  "m.t().t() and m.h().h() evaluate to m; (a*b).t() = b.t()*a.t() for commutative entries and (a*b).h() = b.h()*a.h() with inner dimension at least 1; h() on entries whose conj is the identity equals t().",
  "all matrices of all shapes",
  "all shapes and entries",
  f"{DM}: t, h, Mul for &DMatrix")
p("Diagonals",
  "v.diag() is square with v on the diagonal and zero elsewhere, m.diag() has length min(rows, cols) and entries m[i][i]; v.diag().diag() evaluates to v; DMatrix::eye(n) is the diagonal matrix of ones and is neutral for &a * &b.",
  "all vectors and matrices of all shapes",
  "all shapes",
  f"{DV}: VectorExprWrapper::diag, DVector::diag", f"{DM}: MatrixExprWrapper::diag, DMatrix::diag, eye")
p("DMatrix product",
  "If the inner dimension is at least 1, (&a * &b).eval() is the mathematical product, equal to the SMatrix product of the same entries. If the inner dimension is 0 and the result is non-empty, eval panics although the product (a zero matrix) is well defined.",
  "all shapes including zero dimensions, all entries",
  "all shapes; zero dimensions are never tested",
  f"{DM}: MulDMatrix, Mul for &DMatrix")
p("Compound assignment on dynamic vectors and matrices",
  "If the shapes agree, a += b and a -= b give exactly (&a + b).eval() and (&a - b).eval(). If they do not agree the mismatch is not detected as such: a longer DVector operand is silently truncated, and a DMatrix operand of the wrong shape can be read through the wrong row stride without a panic.",
  "all shapes of both operands",
  "tests use equal shapes only",
  f"{DV}: AddAssign, SubAssign for DVector", f"{DM}: AddAssign, SubAssign for DMatrix")
p("State left behind by a panicking compound assignment",
  "If a += b (or -=) on a DVector, DMatrix, SVector, SMatrix or Polynomial panics part-way (short operand, overflow, panicking entry), the length or shape of a is that before or after the documented resize, the entries before the failing position hold the new values and the entries after it are untouched.",
  "every operand, every position at which the operation can fail",
  "every crash point; no test catches a panic",
  f"{DV}: AddAssign, SubAssign", f"{DM}: AddAssign, SubAssign", f"{SV}: AddAssign<&Self>", f"{SM}: AddAssign<&Self>", f"{PO}: AddAssign")
p("DVector inner product is sesquilinear",
  "u * v is the sum of conj(u[i])*v[i]; additive in both arguments, conjugate-symmetric for commutative scalars, u*u is real and non-negative over an ordered ring and zero only for zero vectors; by-value and by-reference agree. For vectors of different lengths no panic occurs: the excess entries of the longer vector are ignored.",
  "all vectors of all lengths",
  "all lengths; tests use real vectors of length 3, so conjugation is never exercised",
  f"{DV}: Mul for DVector, Mul for &DVector", "src/algebra/conj.rs: Conj")
# ---- differential evolution
p("Optimizer rejects invalid parameters up front",
  "differential_evolution panics if the population size is below 4, the crossover probability is outside [0,1] (or NaN), the differential weight is outside [0,2] (or NaN), some bound pair is empty (or otherwise rejected by rand, such as one of infinite width), or N = 0 and num_iters > 0; for all other parameters no panic is possible whatever the random numbers and a non-panicking comparator do.",
  "all parameter values, all random number streams, all comparators",
  "all parameter combinations and random streams",
  f"{DE}: optimize")
p("Optimizer returns a point it generated",
  "The returned point is one of the initial random points or one of the trial points passed to the comparator as its first argument - for every comparator, even an inconsistent or stateful one.",
  "all parameters, random streams and comparators",
  "all random streams and adversarial comparators",
  f"{DE}: optimize")
p("Optimizer returns the best point ever compared",
  "If the comparator is a strict weak order (e.g. f(a) < f(b) with no NaN), no point that was ever part of the initial population or ever passed to the comparator is better than the returned point.",
  "all parameters, all random streams, all strict weak orders",
  "all random streams, population sizes and iteration counts, incl. the odd/even cases of the knockout stage",
  f"{DE}: optimize (knockout stage)")
p("Number of comparator calls",
  "The comparator is called exactly num_iters + population_size - 1 times.",
  "all parameters, random streams, comparators",
  "all population sizes (odd/even recursion) and iteration counts",
  f"{DE}: optimize")
p("Bounds are honoured by the initial population only",
  "With num_iters = 0 or differential_weight = 0 the returned point lies within the bounds; otherwise it may lie outside them (there is a run where it does). The escape is bounded: one iteration can enlarge the coordinate range by at most the weight times its width.",
  "all parameters and random streams",
  "all runs; also a negative result",
  f"{DE}: optimize")
p("Index drawing: distinct partners and termination",
  "Each iteration i uses slot i mod population_size and three partners that are pairwise distinct and distinct from it. The rejection loops terminate for every random stream in which no index is avoided forever, and population_size >= 4 is exactly what makes that possible.",
  "all population sizes, slots and random streams",
  "all random streams",
  f"{DE}: optimize (index loops)")
p("Slots evolve independently and monotonically",
  "Iteration i changes at most slot i mod population_size, and only to a point the comparator declared better than the one it replaces; so for a strict weak order the quality of every slot never decreases.",
  "all parameters, random streams, histories",
  "all histories",
  f"{DE}: optimize (main loop)")
p("Crossover changes at least one coordinate source",
  "Every trial point takes at least one coordinate from the mutation formula x_j + (x_k - x_l)*w and all others from either the formula or the current point; with crossover probability 0 exactly one coordinate is mutated, with probability 1 all are.",
  "all parameters, random streams",
  "all random streams",
  f"{DE}: optimize (candidate generation)")
p("A NaN objective in slot 0 is never displaced",
  "With the documented comparator f(a) < f(b), if the first initial point has a NaN objective then exactly that point is returned, whatever all other points are - so the result may be worst instead of best.",
  "all runs whose first initial point has a NaN objective",
  "needs NaN objectives and all random streams",
  f"{DE}: optimize")
p("Ackley function",
  "In exact real arithmetic ackley(x, y) equals the textbook formula -20 exp(-0.2 sqrt((x^2+y^2)/2)) - exp((cos 2 pi x + cos 2 pi y)/2) + e + 20, is symmetric in x and y and in both signs, is non-negative, is below 20 + e, and is zero only at the origin.",
  "all real x, y",
  "global minimum over the whole plane",
  f"{TF}: ackley")
# ---- floating point
p("Floating point: Horner evaluation error bound",
  "If every scalar sum is exact up to a relative error u and every scalar product up to a relative error u plus an absolute error eta (underflow; eta = 0 if none occurs), eval over n coefficients returns a value within ((1+u)^(2n)-1) * sum |a_i||x|^i + (1+u)^(2n) * eta * sum |x|^i of the exact polynomial value. In particular for every IEEE-754 binary format (f32, f64) with round-to-nearest: eval never panics, and whenever its result is finite all coefficients were finite and this bound holds.",
  "all coefficient vectors, all x, all rounded arithmetics with unit roundoff u and underflow unit eta, all IEEE binary formats",
  "worst-case rounding over all inputs",
  f"{PO}: eval_ref")
p("Floating point: dot and matrix product error bound",
  "Under the same rounding assumption the SVector dot product, SMatrix product, matrix-vector product, DMatrix product and DVector dot product are within ((1+u)^(n+1)-1) * sum |a_i||b_i| + (1+u)^(n+1) * n * eta of the exact value per entry; for every IEEE-754 binary format this holds for every entry of the result that is finite.",
  "all sizes, entries, rounded arithmetics and IEEE binary formats",
  "worst-case rounding over all inputs and sizes",
  f"{SV}: Mul<&Self>", f"{SM}: Mul", f"{DM}: MulDMatrix")
p("Floating point: complex product and quotient error bound",
  "Under the same rounding assumption each part of a complex product is within ((1+u)^2-1) times the sum of absolute products of the exact part (plus the underflow term), and sqr_norm has relative error at most (1+u)^2-1; complex division is within an explicit bound of the exact quotient. For every IEEE-754 binary format the product and sqr_norm bounds hold whenever the result is finite, and there is an explicit exponent range for the operands in which a quotient by a non-zero number, and abs, are finite and satisfy the bounds.",
  "all complex numbers, rounded arithmetics and IEEE binary formats (for division and abs: operand parts zero or within the stated range)",
  "worst-case rounding over all inputs",
  f"{CX}: Mul for &Complex, sqr_norm, Div for &Complex")
p("IEEE special values in complex arithmetic",
  "With IEEE-754 scalars of any binary format: dividing any complex number by a zero gives NaN in both parts (never an infinity), and so does dividing by a number with an infinite part (never zero); dividing by a finite number whose squared norm overflows gives only zeros and NaNs, and if it underflows to zero only non-finite parts. A NaN operand makes the affected results NaN; a NaN coefficient, and evaluation of any non-empty polynomial (even a constant) at an infinity, gives NaN. abs() is infinite for every finite z with a part whose square overflows and zero for every z whose squares underflow. sqrt() has an infinite part in the first case; in the second it can be NaN, or wrong by the factor sqrt 2; the sign of a zero imaginary part is ignored by sqrt.",
  "all operands of the stated kind in every IEEE binary format",
  "special values and extreme exponents are never tested",
  f"{CX}: Div, Abs, Sqrt, sqr_norm for Complex")
p("Equality, construction and iteration of the containers",
  "== on complex numbers, vectors, matrices and polynomials compares shapes (for dynamic containers: the dimensions; for polynomials: the number of coefficients, so trailing zeros matter) and all elements with the elements' own ==; it is symmetric and transitive if theirs is, reflexive exactly on values whose elements equal themselves (no NaN), and decides mathematical equality if theirs does. From<array> stores the elements unchanged; into_iter over a vector or reference yields every element exactly once in index order, and rebuilding from it gives the same vector; a loop over &mut v visits every element once in order, writes only that element and, if its body panics, leaves all later elements untouched; is_empty of a dynamic vector expression is true exactly for length 0.",
  "all element types, sizes, values, loop bodies and panic points",
  "all sizes, bodies and crash points; equality laws for every element type",
  f"{CX}: derive(PartialEq)", f"{SV}: From, IntoIterator, derive(PartialEq)", f"{SM}: From, derive(PartialEq)", f"{PO}: derive(PartialEq)", f"{DV}: VectorExpr::is_empty, PartialEq", f"{DM}: PartialEq")
p("Which algebraic laws survive floating point rounding",
  "For every IEEE-754 binary format: complex sum and product are exactly commutative, z - w is exactly z + (-w), conjugation and negation are involutions and commute with products up to signs of zeros; z + 0 == z iff no part is NaN, z - z == 0 and 1 * z == z iff both parts are finite. SVector dot products are exactly symmetric, (a*b).t() is exactly b.t()*a.t(), and the identity matrix of size >= 2 satisfies 1 * m == m iff all entries are finite. Polynomial p + q, q + p and p += q are exactly equal (coefficients beyond the shorter operand untouched), p += &q up to signs of zeros (which can differ); 1 * p == p iff no coefficient is NaN. Sums and products of complex numbers are not associative, products do not distribute, and the polynomial product is not commutative (explicit f32 and f64 cases).",
  "all operands (special values included), sizes and IEEE binary formats; negative parts: existence",
  "all bit patterns of all operands",
  f"{CX}: Add, Sub, Mul, Neg, Conj", f"{SV}: Mul<&Self>", f"{SM}: One, Mul", f"{DM}: Mul, t", f"{PO}: Add, AddAssign, Mul, One")
p("Differential evolution with floating point coordinates",
  "With IEEE-754 scalars of any binary formats: optimize accepts exactly population_size >= 4, a finite crossover probability in [0,1] and a finite weight in [0,2] (signed zeros included) and panics before doing anything for a NaN or infinite parameter; no coordinate arithmetic panics. With the comparator f(a) < f(b) and an objective that is not NaN at the initial points, the result's objective is not NaN and is at most the objective at every initial point and at every compared point where it is not NaN. With weight 0 the result stays within the bounds whenever their width does not overflow. If the bounds are finite and an explicit growth bound does not overflow, all coordinates of the result are finite and within that growth bound.",
  "all bounds, parameters, objectives (NaN allowed away from the initial points), random streams, iteration counts and IEEE binary formats",
  "all random streams and all rounding errors over a run of any length",
  f"{DE}: optimize")
p("Runs of the optimizer compare as expected",
  "Two runs of optimize in settings that behave alike on related coordinates correspond call by call. Consequences: the result and all comparator calls depend on the comparator only through its answers (its internal state is irrelevant), for an objective only through the order of its values, and only through the answers at pairs actually compared; in exact arithmetic optimizing f in affinely mapped bounds is optimizing f composed with that map in the original bounds, for a generator that scales accordingly; over f32/f64, special values included, mirroring any of the coordinates mirrors the whole run (up to signs of zeros); with the same generator state a run with more iterations begins with the same comparator calls and, for a strict weak order, never returns a worse point.",
  "all generators, comparators, bounds, parameters, iteration counts and pairs of runs",
  "relates pairs of runs of any length (hyperproperty)",
  f"{DE}: optimize")
p("Complex absolute value and square root in floating point",
  "For every IEEE-754 binary format: abs() and sqr_norm() give identical bits for z, its conjugate, -z and z with the parts exchanged; abs() is NaN exactly if a part is NaN and otherwise never negative; it is monotone in the magnitudes of the parts (overflow, underflow and infinities included); on an axis it returns |x| bit for bit, and it is never below the magnitude of a part, as long as the squares neither overflow nor fall below the smallest normal number. In the same range sqrt() of a real number x +- 0i is the correctly rounded real square root of |x|, in the real part for x >= 0 and in the imaginary part for x < 0, with +0 as the other part, and sqrt(+-0 + yi) has both parts equal to the correctly rounded square root of |y|/2, up to the sign of y. For every z the real part of sqrt(z) is NaN or not negative and its imaginary part is NaN or has the sign of z's imaginary part.",
  "all operands and IEEE binary formats",
  "all bit patterns of all operands; double rounding happens to cancel only in binary formats",
  f"{CX}: Abs, Sqrt, sqr_norm")
p("Complex square root is accurate in each part",
  "For every IEEE-754 binary format with at least 6 significant bits and every z whose parts are zero or of magnitude between 2^-k and 2^k with 2k + 8 <= emax (f32: k = 59, f64: k = 507), sqrt(z) is finite and each of its parts is within 12u of the same part of the exact principal square root, relative to that part alone - even where the textbook formula sqrt((|z| - re)/2) loses all digits. Hence the result is within 12u of the exact root in the complex plane and its square within (1+12u)^2 - 1 of z, relatively.",
  "all z in the stated range, all IEEE binary formats",
  "worst-case rounding and cancellation over all inputs",
  f"{CX}: Sqrt")
p("Algorithms over Complex<f32> and Complex<f64> are accurate",
  "For every IEEE-754 binary format with unit roundoff u: complex sums, differences and products always return; if both parts of the result are finite, so are both operands and the error is at most u|z +- w| for sums and ((1+u)(1+sqrt(2)u)-1)|zw| (at most 2.5u|zw| for formats with 6 or more bits) plus an explicit underflow term for products; quotients of numbers in a stated range are within sqrt(2)((1+u)^4/(2-(1+u)^2)-1) relatively. Polynomial evaluation, SVector dot products, SMatrix and DMatrix products, matrix-vector products and the conjugating DVector inner product over complex floating point numbers always return (inner dimension at least 1 for DMatrix); any result with finite parts implies finite inputs and is within ((1+u)^2(1+sqrt(2)u))^n - 1, respectively (1+u)^(n+1)(1+sqrt(2)u) - 1, of the exact value, relative to the sum of the absolute values of the terms, plus an explicit underflow term.",
  "all inputs, sizes, degrees and IEEE binary formats",
  "worst-case accumulation of rounding errors over all inputs and sizes",
  f"{CX}: Add, Sub, Mul, Div", f"{PO}: eval", f"{SV}: Mul<&Self>", f"{SM}: Mul, mul_vec", f"{DM}: Mul", f"{DV}: Mul")
p("Complex elementary functions are as accurate as the scalar functions",
  "For every IEEE-754 binary format and every implementation of the scalar exp, sin, cos, sinh and cosh that never panics and is within epsilon (relative) plus theta (absolute) of the true value: exp, sin, cos, sinh and cosh of a complex number with finite parts return; each finite part of the result is within ((1+epsilon)^2(1+u)-1) of the same part of the exact value, relative to that part alone, plus an explicit term in theta and the underflow threshold; hence the result is equally near the exact value in the complex plane. tan is near the complex tangent with an explicit bound unless the division overflows or underflows or the cosine is below its own error bound. For an accurate scalar ln and atan2, the imaginary part of ln is as accurate as atan2, off the branch cut, and the real part is within an explicit bound of about 2u plus relative terms wherever |z|^2 does not overflow and is at least the smallest normal number.",
  "all finite arguments, all IEEE binary formats, all scalar libraries and all error bounds they meet",
  "worst-case errors over all inputs; the scalar library depends on the platform",
  f"{CX}: Exp, Sin, Cos, Tan, Sinh, Cosh, Ln", f"{FN}")
p("Exact symmetries and special values of complex functions",
  "For every IEEE-754 binary format and every scalar library whose sin and sinh are odd and whose cos and cosh are even bit for bit and that never panics, the following hold bit for bit, overflow and NaN included: exp, sin, cos, sinh and cosh commute with conjugation; sin and sinh are odd, cos and cosh even; sin(iz) = i sinh(z), cos(iz) = cosh(z), sinh(iz) = i sin(z), cosh(iz) = cos(z). tan is odd and commutes with conjugation up to signs of zeros. ln commutes with conjugation, including at the branch cut, if atan2 is odd in its first argument; sqrt does off the real axis, but not on the negative real axis, where it ignores the sign of a zero. If the library is exact at zero, exp, sin, cos, sinh and cosh of x +- 0i have exactly the scalar function as real part and a zero imaginary part (NaN where exp, cosh or sinh overflows), and exp(+-0 + iy) is exactly cos(y) + i sin(y). Limits of use: where the squared magnitude of the cosine overflows both parts of tan are NaN or zero; where |z|^2 overflows, underflows or rounds to one the real part of ln is +inf, -inf or 0.",
  "all arguments, all IEEE binary formats, all scalar libraries with the stated symmetries",
  "all bit patterns; the scalar library depends on the platform",
  f"{CX}: Exp, Sin, Cos, Tan, Sinh, Cosh, Ln, Sqrt, Conj", f"{FN}")
p("Ackley function in single precision",
  "ackley(x, y) on f32: exchanging the arguments gives the same result to the last bit, whatever the platform's exp, exp_m1 and cos. If these functions have the exact symmetries, values and ranges every implementation has (cos even, within [-1, 1], cos(0) = 1, exp_m1(0) = 0 and within [-1, 0] for arguments <= 0, exp(1) = E, exp within [0, E] on [-1, 1]), then: changing signs of arguments does not change the result; ackley(+-0, +-0) = +0; for all x, y such that 2 PI x and 2 PI y do not overflow the result is a number between 0 and fl(20 + E), even if x * x overflows, otherwise it is NaN; no point has a value below the value at the origin. The minimum is not unique: where x * x and y * y underflow and the cosines round to one the value is +0 as well. If exp, exp_m1 and cos have relative error eps plus absolute error theta, then on the recommended domain -5 <= x, y <= 5 the result differs from the mathematical Ackley function by at most 300 * 2^-24 + 26 (eps + theta), and on -B <= x, y <= B (5 <= B <= 64) by at most (45 B + 56) * 2^-24 + 26 (eps + theta).",
  "all pairs of f32 bit patterns (accuracy: finite arguments in [-5, 5]), all implementations of exp, exp_m1 and cos meeting the hypotheses",
  "2^64 argument pairs; the functions of std depend on the platform",
  f"{TF}: ackley")
p("Minimising the Ackley function, end to end",
  "The documented use: differential_evolution on f32 with bounds within -5..5 and the comparator ackley(lhs) < ackley(rhs), the functions exp, exp_m1 and cos of the platform having a total error of at most 2^-10. For every generator keeping rand's promises, every seed, every population size of at least 4, every crossover probability in [0, 1], every weight in [0, 2] and every number of iterations: if no index is avoided forever, the call returns; every point that is ever kept has coordinates within [-10, 10] and every point ever tried within [-50, 50] (no overflow, no NaN, however long the run); the returned point has the least computed value of all points ever compared, and no point ever compared is better in the mathematical Ackley function by more than twice the error of one evaluation (2306 * 2^-24 + 26 (eps + theta)); more iterations with the same random numbers never give a worse value; the documented assertions |loc[0]| < 0.1, |loc[1]| < 0.1 hold whenever any compared point has a computed value of at most 1/4.",
  "all generators, seeds, parameters, numbers of iterations, and platform libraries within the error bound",
  "unbounded number of iterations and all sequences of random numbers; the tests run ten seeds",
  f"{DE}: optimize", f"{TF}: ackley")
p("Dynamic vectors and matrices obey the laws of linear algebra",
  "Every formula built from DVector and DMatrix values with +, -, mul_elemwise, the matrix product, t, h, conj, diag (both directions), zeros, ones, eye and intermediate eval(), nested in any way, evaluates - if it evaluates - to what linear algebra gives for it over the ring the element type computes in. Hence every identity of linear algebra holds for results: two formulas with the same mathematical meaning that both evaluate give equal vectors or matrices; in particular associativity of the product, distributivity on both sides, the group laws of addition, neutral and zero matrices, (ab)^T = b^T a^T and (ab)^H = b^H a^H, a a^H Hermitian, products of diagonal matrices. If element operations cannot panic (wrapping integers) and no product has inner dimension 0 with a non-empty result, both sides always evaluate, so both computations are equal.",
  "all formulas of any size and nesting, all shapes, all entries, all element types that compute in a ring (overflow-checked and wrapping integers, complex numbers over them, exact numbers)",
  "infinitely many formulas, shapes and entries",
  f"{DV}: VectorExpr, Add, Sub, MulElemwise, Conj, Diag", f"{DM}: MatrixExpr, Add, Sub, MulElemwise, Mul, T, H, Diag, eye, zeros, ones")
p("Formulas of linear algebra in floating point arithmetic",
  "For every IEEE-754 binary format with unit roundoff u: every formula built from DVector and DMatrix values with +, -, mul_elemwise, the matrix product, t, h, conj, diag, zeros, ones, eye and eval(), nested in any way, evaluates without panic over floats and over complex floats (inner dimension at least 1 in products with non-empty result). Every finite entry of the result depends only on finite given entries and differs from the exact value by at most (factor - 1) * mag + factor * under, where mag is the same formula with absolute values and sums in place of differences, factor collects 1 + u per sum and per product (complex products: (1+u)(1+sqrt(2)u)) on the longest path, and under collects an underflow threshold per product. If the bound on the magnitude of each operation does not exceed 2^emax, every entry is finite. Identities of linear algebra hold up to the sum of the two bounds; for example every finite entry of (a b) d is within ((1+u)^(m+n) - 1) |A||B||D| plus underflow of the exact entry.",
  "all formulas of any size and nesting, all shapes, all bit patterns of the entries, all IEEE binary formats",
  "worst-case accumulation of rounding errors over all formulas and inputs",
  f"{DV}: VectorExpr, Add, Sub, MulElemwise, Conj, Diag", f"{DM}: MatrixExpr, Add, Sub, MulElemwise, Mul, T, H, Diag, eye, zeros, ones", f"{CX}: Add, Sub, Mul, Conj")
p("With ideal random numbers the optimizer is the textbook algorithm in distribution",
  "If the random numbers are independent, indices uniformly distributed, the initial coordinates distributed according to D and the crossover numbers according to U, then for valid parameters and a panic-free comparator without memory: differential_evolution returns with probability one, and for every set X of points the probability that the returned point lies in X is exactly that of the textbook algorithm DE/rand/1/bin: independent initial points; for slot t mod n a uniformly distributed ordered triple of different slots other than it; donor x1 + (x2 - x3) * weight; binomial crossover with one uniformly chosen coordinate surely from the donor and every other independently if a random number is below the crossover probability; replacement if better; finally a tournament. The probability that some partner needs more than f attempts is at most iterations * ((1/n)^f + (2/n)^f + (3/n)^f). For a consistent comparator: the probability to return a point at least as good as any given quality does not decrease with the number of iterations, and is at least 1 - (1 - p)^n if a random initial point has that quality with probability p. This covers f32 and f64 coordinates, NaN and infinities included.",
  "all distributions, generators with independent draws, comparators, parameters, numbers of iterations, sets of points",
  "a statement about probabilities; every sequence of random numbers matters",
  f"{DE}: optimize")
p("Running error analysis of any program",
  "For every program composed of ring operations of containers nested in any way (Complex, Polynomial, square SMatrix), polynomial evaluation, SVector and SMatrix operations and lazy and eager DVector and DMatrix operations, and every IEEE-754 binary format: running the program with an element type that carries an exact value, an error bound and a no-overflow flag (err grows by the textbook rules: operand errors plus u times the magnitude plus an underflow threshold for products, or stays 0 if nothing has to be rounded) gives a certificate for the floating point run: both panic alike, or both return results of the same shape in which every finite number differs from the exact number at the same place by at most the carried bound, and every number whose flag says that no overflow was possible is finite. A bound of 0 means that the number is exact. Two programs that compute the same exact number give floating point results that differ at most by the sum of their bounds. The same holds over complex floats, and for inputs that have errors themselves.",
  "all programs, nestings, shapes, bit patterns of inputs, IEEE binary formats",
  "worst-case rounding errors over all programs and inputs",
  f"{CX}: Add, Sub, Mul, Neg, Conj", f"{PO}: eval, Add, Sub, Mul", f"{SV}: SVector", f"{SM}: SMatrix", f"{DV}: DVector, VectorExpr", f"{DM}: DMatrix, MatrixExpr")
p("On integers, floating point arithmetic is integer arithmetic",
  "Every program over the API (as in the previous property) that returns when run on machine integers iN with overflow checks returns also when run on the same numbers as floating point numbers, and every entry of the result is finite and equal to the corresponding integer, if N <= p + 1 for the precision p of the format (i8, i16, i32 in f64; i8, i16 in f32). So integer-valued float computations that would not overflow i32 are exact. The same holds for Complex<iN> and Complex<f64>.",
  "all programs, nestings, shapes, integers, widths and formats with N <= p + 1",
  "infinitely many programs and inputs",
  f"{CX}: Add, Sub, Mul, Neg, Conj", f"{PO}: eval, Add, Sub, Mul", f"{SV}: SVector", f"{SM}: SMatrix", f"{DV}: DVector, VectorExpr", f"{DM}: DMatrix, MatrixExpr")
p("The randomized test of the complex square root passes for every input",
  "For f32 and f64 (any IEEE-754 binary format with at least 20 significant bits) and every z whose parts are zero or of magnitude between 2^-k and 2^k with 2k + p + 11 <= emax (k = 46 for f32, k = 479 for f64): s = z.sqrt() has finite parts and s.re >= 0; the computed square s * s differs from z by at most 4 * EPSILON * |z| in exact arithmetic; and the check of the crate's test test_sqrt_complex_f32, (z - s * s).abs() <= 4 * EPSILON * z.abs(), with everything computed in floating point, is true.",
  "all bit patterns of both parts in the stated range",
  "2^64 inputs for f32 alone; the test samples one hundred",
  f"{CX}: Sqrt, Mul, Sub, abs")
p("What the population has in common is never lost",
  "For every comparator, even an inconsistent one: once all points of the population agree in a coordinate, at the beginning or at any later time, this coordinate never changes again: all points compared from then on have it, and so does the returned point. If the whole population has collapsed to one point, that point is returned. This holds in exact arithmetic and, for finite coordinates, for every IEEE-754 binary format (the coordinates compare equal with ==). In exact arithmetic with crossover probability 1, every linear equation satisfied by all points of the population is satisfied by all later points and the result: the search is confined to the affine span of the population. With an integer weight a coordinate whose values lie on a grid stays on that grid.",
  "all generators, comparators, bounds, parameters, times during the run, numbers of iterations, coordinates, linear equations, grids",
  "a statement about all later iterations of all runs",
  f"{DE}: optimize")
p("Accuracy of any formula of complex functions",
  "For every formula built from complex inputs with +, -, *, /, negation, conj, multiplication by a real, exp, sin, cos, tan, sinh, cosh, ln and sqrt, nested in any way, every IEEE-754 binary format with at least 8 significant bits and every scalar library that is within epsilon (relative) plus theta (absolute) of the true functions: if no intermediate result overflows, operands of quotients and roots are neither huge nor tiny, and denominators stay away from zero and arguments of ln and sqrt from the branch cut by more than their error, the computation returns finite parts, and the result differs from the true value in the complex plane at most by an explicit running error bound (the rounding error of each operation, plus the operand error multiplied by how strongly the function varies near the computed operand). Hence identities of analysis hold up to the sum of the bounds of both sides: exp(a + b) and exp(a) exp(b), sin^2 + cos^2 and 1, cosh^2 - sinh^2 and 1, exp(ln a) and a, sqrt(a)^2 and a, (a b) / b and a.",
  "all formulas of any size and nesting, all inputs, all IEEE binary formats, all scalar libraries and error bounds they meet",
  "worst-case errors over all formulas and inputs; the scalar library depends on the platform",
  f"{CX}: Add, Sub, Mul, Div, Neg, Conj, Exp, Sin, Cos, Tan, Sinh, Cosh, Ln, Sqrt", f"{FN}")
p("The logarithm of a product; the randomized test of the complex logarithm passes for every input",
  "For f32 and f64 (any IEEE-754 binary format with at least 20 significant bits), every scalar ln with relative error epsilon <= 1/16 plus absolute error theta and every atan2 with absolute error delta (free to choose the sign of pi on the negative real axis), and every a, b other than zero whose parts are zero or of magnitude between 2^-k and 2^k with 4k + 10 <= emax (k = 29 for f32, k = 253 for f64): a * b, ln(a), ln(b) and ln(a * b) are finite, the real part of ln(a * b) - ln(a) - ln(b) is at most 2 ((1 + u)(1 + epsilon) - 1)(|log|a|| + |log|b||) + 6u + 2 theta, and the imaginary part is within 3 delta + 2.45u of -2 pi, 0 or 2 pi. The check of the crate's test test_ln_complex_f32, with everything computed in floating point, is true if the scalar ln is within 4u relative plus u and atan2 within 2.1u (correct rounding gives 2u); without a full turn even the assertion with 8 * EPSILON in place of 8 * PI holds. For a = 0 the check fails.",
  "all bit patterns of the four parts in the stated range, all scalar libraries within the stated error bounds",
  "2^128 inputs for f32 alone; the test samples one hundred; the scalar library depends on the platform",
  f"{CX}: Ln, Mul, Sub, abs, test_ln_complex_f32")
p("Polynomial formulas in floating point arithmetic",
  "Coefficient k of a product p * q is, for any element type, the sum from left to right starting from T::zero() of the products p[i] * q[k - i] for increasing i. For every formula built from polynomials over f32, f64 or any other IEEE-754 binary format, or complex numbers of it, with +, -, *, negation, zero and one, nested in any way: computing it returns a polynomial with the number of coefficients determined by the formula; every finite coefficient differs from the exact one at most by an explicit bound (a relative error per term: 1 + u per sum, 1 + v per product and (1 + u)^min(m, n) per polynomial product, times the sum of the absolute values of the terms, plus what underflowing products contribute), and the given coefficients it depends on are finite; if the estimated magnitudes do not overflow, all coefficients are finite. The same holds for formulas of numbers that contain values of polynomial formulas (Horner's scheme at an inexact point with inexact coefficients). Hence ring laws and the homomorphism laws of evaluation hold up to the sum of the bounds of both sides.",
  "all formulas of any size and nesting, lengths, bit patterns of coefficients, IEEE binary formats",
  "worst-case accumulation of rounding errors over all formulas and inputs",
  f"{PO}: eval, Add, Sub, Mul, Neg, Zero, One", f"{CX}: Add, Sub, Mul, Neg")
p("Euler's formulas; the crate's tests of complex sin, cos, sinh and cosh pass for every input",
  "For f32 and f64 (any IEEE-754 binary format with at least 20 significant bits) and every scalar library whose exp, sin, cos, sinh and cosh are finite and within epsilon (relative) plus theta (absolute) of the true functions for arguments up to R with 64 e^R <= 2^emax, and every complex z with parts up to R: the methods sin, cos, sinh, cosh and Euler's formulas (e^iz - e^-iz) / 2i, (e^iz + e^-iz) / 2, (e^z - e^-z) / 2, (e^z + e^-z) / 2 computed with the crate's operators return finite parts; the method is within about (2 epsilon + u) |w| and the formula within about (2 epsilon + u) cosh(t) + u |w| of the true value w, where t is Im z for sin and cos, Re z for sinh and cosh. The checks of the crate's tests, (a - b).abs() <= z.abs().exp() * 2 * EPSILON with everything in floating point, are true: for sin and sinh for every z with |z| + 1 <= R (epsilon <= 1.1u, theta <= u / 256, e^2R <= 2^emax, 512 u R <= 1, p + 24 <= emax), for cos and cosh for those with |z| >= 1.2 and epsilon <= u.",
  "all bit patterns of both parts in the stated range, all scalar libraries within the stated error bounds, all IEEE binary formats",
  "2^64 inputs for f32 alone; the tests try one value each; the scalar library depends on the platform",
  f"{CX}: Exp, Sin, Cos, Sinh, Cosh, Div, Mul, abs, test_sin_complex_f32, test_cos_complex_f64, test_sinh_complex_f32, test_cosh_complex_f32")
p("Backward stability: results are exact for slightly changed inputs",
  "For f32, f64 and any other IEEE-754 binary format with unit roundoff u, and whatever the finite inputs: a finite value p.eval(x) is the exact value at the same x of a polynomial whose coefficient i differs relatively by at most (1+u)^(2i+1) - 1 (so a computed zero is a root of a nearby polynomial), a finite dot product of length n is the exact one of a left vector whose entry i differs by at most (1+u)^(n-i+1) - 1, a finite matrix-vector product is exact for a matrix that differs in every entry by at most (1+u)^(n+1) - 1 relatively, and every column of a matrix product is exact for a left factor near the given one; each up to an explicit absolute term that is due to underflow only and is proportional to the smallest positive number. The same holds for complex numbers (with the constant of one complex product in place of the one of a real product, and conjugation of the left vector in DVector's inner product). The square root of a complex number z with parts zero or of magnitude between 2^-k and 2^k, 2k + 8 <= emax, is exactly the principal square root of a number within (1 + 12u)^2 - 1 of z relatively.",
  "all lengths and shapes, all bit patterns of the inputs with finite results, all IEEE binary formats",
  "existence of nearby inputs for every one of the possible inputs; tests only compare with tolerances at samples",
  f"{PO}: eval", f"{SV}: dot product", f"{DV}: Mul", f"{SM}: Mul", f"{DM}: Mul", f"{CX}: Mul, Add, Sqrt")
p("Floating point results for non-negative data are ordered like the data and never NaN",
  "For f32, f64 and any other IEEE-754 binary format and all finite data with 0 <= a <= a' as the program compares: p.eval(x) <= p'.eval(x') for polynomials whose coefficients are ordered (p' may have further non-negative coefficients) and x <= x'; dot products, matrix-vector products, matrix products (SMatrix and DMatrix) and the coefficients of products of polynomials are ordered in both operands; none of these results is negative or NaN, and overflow gives +inf on the larger side first. A dot product is at least every single product. Sums and differences of vectors are monotone whatever the signs, infinities included, wherever they are not NaN.",
  "all lengths and shapes, all bit patterns of finite non-negative inputs (all inputs for sums), all IEEE binary formats, overflow and underflow included",
  "an order relation between results for all pairs of inputs",
  f"{PO}: eval, Mul", f"{SV}: Add, Sub, dot product", f"{DV}: Mul", f"{SM}: Mul", f"{DM}: Mul")
p("Inner products and Gram matrices in floating point arithmetic",
  "For f32, f64 and any other IEEE-754 binary format and all inputs, special values included: for complex DVectors u * v and v * u have the same real part bit for bit and opposite imaginary parts (up to signs of zeros). The real part of u * u is bit for bit the left-to-right sum of the sqr_norm of the entries, the imaginary part is +0, except that it is NaN if for some entry re * im overflows or is NaN. If u contains no NaN, the real part of u * u is not negative, at least the sqr_norm of every entry, and zero exactly if all of these are zero (they may underflow). The computed Gram matrix a.t() * a of a real DMatrix is symmetric bit for bit; a.h() * a of a complex one is Hermitian in the same sense, with diagonal entries as described for u * u and at least the sqr_norm of every entry of the column.",
  "all lengths and shapes, all bit patterns of the entries, all IEEE binary formats",
  "exact symmetry of rounded sums for all inputs, including overflow, underflow, NaN and infinities",
  f"{DV}: Mul (inner product)", f"{DM}: t, h, Mul", f"{CX}: Conj, Mul, Add, sqr_norm")
p("The optimizer prefers no coordinate and no unit",
  "With ideal random numbers (independent, uniform indices, given distributions of the coordinates): let a second problem be the first one with the coordinates in another order and every coordinate re-coded, so that initial distributions, comparison and mutation x + (y - z) * w correspond. Then for every set X of points optimize on the second problem returns a point of X with exactly the probability that optimize on the first returns a point whose re-coding is in X, whatever two ideal generators are used. In particular: coordinates may be permuted, for every scalar type including f32 and f64 with NaN and infinities; if bounds and objective do not change under a permutation, the distribution of the result does not either; in exact arithmetic any change of units and origin a*x + b of each coordinate (also with negative a) changes the distribution of the result accordingly.",
  "all dimensions, populations of at least four, parameters, numbers of iterations, permutations, re-codings, objectives and events",
  "equality of two probability distributions over infinitely many seeds; tests run one seed",
  f"{DE}: optimize, crossover, the mutation loop")
p("How many random numbers an optimizer run needs",
  "Count the calls of the generator (gen_range for coordinates, gen_range for indices, gen::<f32>()). For every generator that keeps the contract of rand, a run of optimize over N coordinates with population n that returns needs at least n*N + iters*(N + 3) random numbers, and at most n*N + iters*(N + 3*f) if no draw of a partner takes more than f attempts. With an ideal generator the expected number is exactly n*N + iters*(N + n/(n-1) + n/(n-2) + n/(n-3)), also with f32 and f64 coordinates, whatever the objective, bounds and crossover probability. So rejection costs at most 4/3 + 4/2 + 4/1 draws per iteration on average, and the average cost per iteration does not grow with the population.",
  "all dimensions, populations of at least four, parameters, numbers of iterations, objectives, generators (the bounds) and ideal generators (the expectation)",
  "the cost is unbounded and differs between seeds; an expectation over all infinite random sequences is not observable by runs",
  f"{DE}: optimize, the three rejection loops, n == r || rng.gen::<f32>() < crossover_probability")
p("Generic code treats all element types alike",
  "Take any program composed of the ring-level API (arbitrarily nested Complex and Polynomial, SVector, SMatrix, DVector, DMatrix, lazy expressions, indexing, compound assignments). If two element types are related so that each of their operations preserves the relation, the program run on related inputs panics alike or returns related results. Hence: the sequence of element operations behind each scalar of the result depends only on the program and on the shapes of its inputs, never on the data or the element type; if element operations do not panic, whether and how the program panics depends on neither; interval arithmetic as the element type gives guaranteed enclosures of all exact results. And the work is as expected: a complex product takes 4 multiplications and 2 additions; eval of n coefficients n and n; a product of polynomials with n and m coefficients n*m and n*m; dot products of length n n and n; l x m times m x n static matrices l*n*m and l*n*m, dynamic ones l*n*m multiplications and l*n*(m-1) additions.",
  "all programs, all shapes and nestings, all pairs of element types and all relations between them, all inputs",
  "element types are open to users (traits); parametricity quantifies over all implementations of the traits and all programs",
  f"{PO}: Polynomial", f"{CX}: Complex", f"{SV}: SVector", f"{SM}: SMatrix", f"{DV}: DVector", f"{DM}: DMatrix", "src/algebra/ring.rs: Ring")
p("Dual numbers as element type: programs differentiate themselves",
  "Let T be dual numbers (value and derivative, with the sum and product rules). Run over T, every program composed of the ring-level API returns for every scalar of its result the value and the exact derivative of the function the program computes: for inputs that are functions of a real parameter differentiable at t0, the results are functions differentiable at t0, and the dual run on (f(t0), f'(t0)) gives their values and derivatives; panics are the same. In particular, over every commutative ring p.eval(x + eps) is p(x) + p'(x)*eps.",
  "all programs, shapes, differentiable input functions, points; all commutative rings and polynomials",
  "derivatives of all programs at all points",
  f"{PO}: eval, Mul, Add", f"{CX}: Mul", f"{SV}: dot product", f"{SM}: Mul", f"{DV}: Mul", f"{DM}: Mul")
p("Changing units by powers of two changes nothing else",
  "Results do not depend on the unit of measurement, if units differ by powers of two. Scale the inputs of any program composed of the ring-level API, run over f32/f64, by powers of two that are consistent as physical units are (the unit of a product is the product of the units, summands have equal units): if nothing overflows or underflows in either run, every scalar of the result is scaled by exactly the power of two its unit calls for - not just up to rounding. For sums and differences no condition on underflow is needed; for dot products and matrix products it is enough that no product of entries is subnormal and the results are finite. The same holds for complex multiplication, division (units divide) and abs; Complex::sqrt takes the same branch and turns a factor 4^k into exactly 2^k. And so does the optimizer: measure every coordinate in a unit of its own; if the generator delivers the same numbers up to these factors and the comparator compares scaled points alike, optimize makes the same comparisons, at exactly scaled points, and returns the exactly scaled result.",
  "all programs, shapes, inputs, unit systems and exponents k; f32 and f64 (every binary format)",
  "exact equality of two rounded computations for all inputs, with rounding at different magnitudes in every step",
  f"{DE}: optimize", f"{CX}: Mul, Div, Abs, Sqrt", f"{PO}: eval, Mul", f"{SV}: dot product", f"{SM}: Mul", f"{DV}: Mul", f"{DM}: Mul")
p("No number of iterations makes success certain",
  "With ideal random numbers: if in each coordinate a set of values is not left by mutation x + (y - z) * w, then after any number of iterations optimize returns a point with all coordinates in these sets with at least the probability that the whole initial population starts there, and so a set of points outside is reached with at most the complementary probability. In particular, in exact arithmetic and with f32 and f64, optimize returns any given point x (finite, no -0) with at least the n-th power of the probability to draw it, however bad it is; so if the generator can draw at least one point outside a target set, the probability to return a target point stays below a bound p < 1 that does not depend on the number of iterations. (The number of iterations raises the chance of success, C64, but never to certainty; a larger population does that.)",
  "all dimensions, populations of at least four, parameters, numbers of iterations, objectives, initial distributions, invariant sets and targets",
  "a bound on probabilities for unbounded numbers of iterations",
  f"{DE}: optimize, the mutation loop, the selection")
p("When overflow-checked integers cannot overflow",
  "A program over the API on overflow-checked machine integers (or complex numbers of them), containers nested to any depth, returns whenever the same program run on bounds of the magnitudes of its inputs (sums and products of bounds in place of sums, differences and products) never exceeds what the integers can hold, and the bounds it computes bound the entries of the result; then the same program on floats that hold all integers of the width rounds nothing. In particular a dot product, a matrix product, a matrix-vector product, the evaluation of a polynomial and a product of polynomials return the exact result whenever for each entry the sum of the magnitudes of its terms is less than 2^(w-1); for non-negative entries they return exactly if every entry of the exact result can be held - no intermediate result overflows before. A complex product returns exactly if its four products and its two parts can be held, sqr_norm exactly if its value can be held.",
  "all programs over the API, container nestings, bit widths of at least 2, inputs and bounds on them; all dimensions, degrees and values",
  "unbounded programs and dimensions; whether some intermediate value overflows depends on all the values",
  f"{PO}: eval, Mul; {SV}: Mul; {SM}: Mul; {DV}: Mul; {DM}: Mul; {CX}: Mul, sqr_norm")
p("A search on a grid is exact in floating point",
  "Let the random points have coordinates on a grid, coordinate c being an integer of size at most B times a power of two 2^k(c), with 5 B <= 2^p (p = 24 for f32, 53 for f64) and k(c) within the exponent range of the type; let the differential weight be 0, 1 or 2; and let the comparator never prefer a point outside the box of size B to a point inside. Then optimize in f32 or f64 never rounds: it makes, call by call, the same comparator calls with the same answers as the run in unbounded integer arithmetic, consumes the same random numbers and returns the same point (or panics in the same way). In particular every point passed to the comparator and the result are grid points, whatever the comparator computes. More generally, two settings that behave alike as long as the population is confined, with comparators that keep it confined, run alike for ever. The bound 5 B <= 2^p cannot be dropped: beyond it a trial coordinate may be rounded.",
  "all formats, grids, box sizes, dimensions, population sizes, crossover probabilities, numbers of iterations, generators and comparators",
  "the number of iterations is unbounded, and a single rounding in one trial would change everything after it",
  f"{DE}: optimize")
p("When the closures of a lazy expression are called",
  "The closures given to make_vector_expr, make_matrix_expr and map may have effects (a counter in a Cell, a random number generator in a RefCell) and may panic. Constructing an expression calls none of them, unless an intermediate eval() is part of it; also a failing length check calls none. eval() calls the closures each entry needs, entry after entry (matrices row after row), for each entry those of the left operand before those of the right one and those of the operand of map before the mapped closure; diag() of a matrix asks for the diagonal entries only, diag() of a vector for each entry once; an operand evaluated before is not evaluated again. If something panics, exactly a beginning of this sequence of calls was made. Each closure given to make_* is called at most once per index, however deep the nesting. v += e and v -= e read e at the indices of v only, once each and in order, and never change the shape of v. If what the closures return does not depend on the state, the results are those of the expression without effects.",
  "all expression trees over the dynamic vector and matrix API, all closures and states, all shapes and element types, panics included",
  "all nestings and all stateful closures; the order of effects is a property of every execution, including those cut short by a panic",
  f"{DV}: VectorExpr::eval, make_vector_expr, map, zip, Add, Sub, mul_elemwise, div_elemwise, conj, diag, AddAssign, SubAssign", f"{DM}: MatrixExpr::eval, make_matrix_expr, map, zip, Add, Sub, Mul, mul_elemwise, div_elemwise, t, h, diag, AddAssign, SubAssign")
p("When floating point arithmetic rounds nothing",
  "Write beside every input of a program over the API a word: the weight 2^k of its last bit and the largest number of such units it can have, as for fixed-point arithmetic. If the program, run on the words (products add the weights and multiply the sizes, sums take the finer weight and add the sizes), never needs a word the floating point format cannot hold (more than 2^p units, a last bit below the last subnormal bit, overflow), then on all inputs that have these words it rounds nothing: run on f32 or f64 it returns exactly the result of exact arithmetic, every entry is finite, and every entry has the word computed for it. So also for complex numbers. In particular dot products, matrix products, matrix-vector products and products of polynomials of numbers m*2^a and n*2^b are exact whenever for each entry the sum of the |m||n| of its terms is at most 2^p (and the exponents are not extreme), the evaluation of a polynomial at an integer whenever the sum of the |a_i||x|^i is, the complex product whenever the sums for its parts are. The bound 2^p is sharp in every format: with a sum of 2^p + 1 a dot product of integers may be rounded.",
  "all programs over the API, container nestings, binary formats, inputs and words; all dimensions, degrees, values and exponents",
  "unbounded programs and dimensions; a single rounding depends on all the values before it",
  f"{PO}: eval, Mul; {SV}: Mul; {SM}: Mul; {DV}: Mul; {DM}: Mul; {CX}: Mul")
p("The addition theorem of the tangent, and the crate's randomized test of the complex tangent",
  "For finite a, b with absolute values up to 3/16, and a math library about as accurate as correct rounding, the computed tan(a + b) is within 5.6 u, and the computed (tan a + tan b) / (1 - tan a tan b) within 9.1 u, of the tangent of the exact sum (u = 2^-24 for f32, 2^-53 for f64), and the assertion of test_tan_complex_f32 holds, its error and its tolerance being computed in floating point as well. The test samples from a larger square, and there the assertion is not always true, however accurate the library is: with correctly rounded sin, cos, sinh and cosh it fails for a = b = pi/4 (rounded to f32), where both computed tangents are exactly 1 and the expected value is NaN - as it does whenever the computed 1 - tan a tan b is zero. So a failure of this test does not by itself mean that tan is wrong.",
  "all pairs of finite complex numbers in the disc, all formats and accurate libraries; for the failure all correctly rounding libraries",
  "the test samples 100 random pairs; whether it can fail depends on all pairs",
  f"{CX}: test_tan_complex_f32, Tan, Sin, Cos, Div, Mul, Sub, sqr_norm, Abs")

p("A-priori accuracy of formulas of complex functions with uncertain inputs, and convergence with growing precision",
  "Take any formula built from complex inputs by +, -, *, /, negation, conjugation, scaling, exp, sin, cos, sinh, cosh, ln and sqrt, and evaluate it in IEEE arithmetic on floating point inputs that are within known uncertainties of the true inputs. If the true values of its parts are within range, stay away from zero denominators and from the branch cut of ln and sqrt by more than their uncertainty, the evaluation succeeds with a finite value, and differs from the true value at the true inputs by at most a bound that is computed from true values and uncertainties only. Two formulas with the same true value thus give numbers that differ by at most the sum of their bounds. In particular a quotient of finite numbers - with zero, subnormal or very unequal parts, |z|, |w| at most 2^k, |w| at least 2^-k - is within 6.5 u |z/w| + 8 eta 4^k of the exact quotient, and a square root within 12.2 u sqrt|z| + 2 eta of the principal root. And the formula converges: for every tolerance there are a precision and an accuracy of inputs and of the math library from which on the computed value is finite and within the tolerance of the true value, wherever the formula is regular.",
  "all formulas, all formats, all inputs and uncertainties, all math libraries of the given accuracy, all tolerances",
  "the formulas, the formats and the inputs are infinitely many; the true value is not computable exactly; the limit in the precision is not observable by any test",
  f"{CX}: Add, Sub, Mul, Div, Neg, Conj, MulScalar (Mul<T>), Exp, Sin, Cos, Sinh, Cosh, Ln, Sqrt")
p("Mean and spread of the proposed points; coordinates the objective ignores do not drift",
  "Let the random numbers be ideal and the coordinates exact rational numbers, n points of N coordinates, crossover probability cp and differential weight w, and let q = 1/N + (1 - 1/N) P(random number < cp) be the probability that a coordinate of the proposed point is mutated. For every population, every slot and every coordinate: the expected value of the proposed coordinate is (1 - q) times the present one plus q times the mean of the other points; its expected squared distance from any number a is (1 - q) times that of the present one plus q times ((m - a)^2 + (1 + 2 w^2 (n-1)/(n-2)) v), m and v being mean and mean square deviation of the other points. Averaged over all slots, the proposed points have the mean of the population, and their mean square deviation from it is exactly 1 + 2 q w^2 n/(n-1) times that of the population: proposals are never biased, never less spread than the population, and the spread is under the control of q and w. If the comparator does not look at a coordinate, the expected value of this coordinate in the returned point is the expected value of a random initial one, after any number of iterations.",
  "all populations, population sizes >= 4, dimensions, slots, coordinates, valid parameters, ideal generators, comparators that are functions of their arguments, and numbers of iterations",
  "averages over all random numbers, for all populations; a sample mean over finitely many runs settles neither the factor nor the absence of drift",
  f"{DE}: optimize")
p("Comparators that err: what noisy and inexact objectives cost",
  "Let f be the function one would like to minimise, and let the comparator be anything: stateful, random, inconsistent. An answer costs nothing if the point it declares better is at least as good under f, otherwise the difference. For every run of optimize that returns: the returned point is worse than any initial point and any point ever passed to the comparator by at most the sum of the costs of all answers given in the run; so if k answers are wrong by at most e each, by at most k e. If no answer costs more than e, it is worse by at most (ceil(num_iters / population_size) + ceil(log2 population_size)) e: errors accumulate along the iterations of one slot and the rounds of the knockout stage only. This bound is attained. If the comparator consistently minimises an approximation of f that is off by at most d everywhere (f computed in floating point, say), nothing accumulates: the returned point is worse than any other by at most 2 d, however long the run.",
  "all objectives, comparators, generators, element types, dimensions, population sizes, parameters and numbers of iterations",
  "all possible patterns of wrong answers in runs of any length; the worst case is adversarial and no test would find it by sampling",
  f"{DE}: optimize")
p("Mirror images: sign changes, quarter turns, conjugation and the real axis are respected exactly by floating point programs",
  "For every program over the ring-level public functions (polynomials, static and dynamic vectors and matrices, nested containers): (1) the signs of zeros in the inputs influence nothing but the signs of zeros in the results; (2) changing the signs of some inputs changes results in sign only, as predicted by tracking signs through products, provided only numbers changed alike are added; (3) over complex numbers the same holds for turns by right angles, optionally combined with conjugation; (4) conjugated inputs give conjugated results, for every program; (5) a program run on real numbers embedded in the complex numbers gives, wherever the real result is finite, exactly that number with imaginary part zero. No rounding error enters and no assumption about overflow is made. In particular dot products and matrix products are exactly odd in each factor, p(-x) is exactly the value at x of the polynomial with alternating signs, and p(ix) likewise.",
  "every program, every input (NaN, infinities and zeros of either sign included), every floating point format, every assignment of signs or turns to the inputs",
  "a test compares a few runs; that rounding never breaks the symmetry, for any program and any input including the exceptional ones, is a statement about all of them",
  f"{CX}: Mul, Add, Sub, Neg, Conj", f"{PO}: eval, Mul", f"{SV}: Mul", f"{SM}: Mul", f"{DV}: Mul, conj", f"{DM}: Mul, h")
p("Element types whose operators have effects: which operators are called, how often and in which order",
  "Let the operators of the element type (zero, one, clone and conj included) have side effects: counting, logging, recording on a tape, drawing random numbers. (1) If each operator still returns, or panics with, what it would without the effects, then so do polynomial evaluation, sums, differences, negation and products of polynomials (in-place forms included, with the state left behind by a panic), complex arithmetic with norm and quotient, dot products, sums and products of static vectors and matrices, and inner products and matrix products of dynamic ones. (2) If each operator appends a fixed entry to a log, the log of each of these functions is a list that depends on the sizes only, not on the values; if an operator panics, the log is a prefix of that list. E.g. Horner's scheme takes one zero() and then one product and one += per coefficient, in this order; a product of polynomials of m and n coefficients takes one zero(), m + n - 2 clones and m n pairs of a product and a +=; an l x m by m x n matrix product takes l n times one zero() and m pairs of a product and a +=; a complex product takes four products, a -= and a +=. (3) Both statements carry over to complex numbers and square matrices as element types, to any depth.",
  "all worlds and effects, all element types and operators (panicking ones included), all sizes and values, all nestings of complex numbers and square matrices",
  "the effects, the sizes and the values are arbitrary; a test can count operations for a few sizes only, and shows nothing about the order of calls in the presence of panics for all operators",
  f"{PO}: eval, Add, AddAssign, Sub, SubAssign, Neg, Mul", f"{CX}: Add, Sub, Mul, Div, Neg, Conj, sqr_norm", f"{SV}: Mul, AddAssign, SubAssign, MulAssign", f"{SM}: Mul, AddAssign, SubAssign, One, Zero", f"{DV}: Mul", f"{DM}: MulDMatrix, eval")
p("Elements that are handles: arenas, shared nodes, tapes; record once, replay anywhere",
  "Let the elements be handles into a mutable world that only grows (an arena, reference counted nodes, the tape of an automatic differentiation package), and let the operators on handles, clone included, do to the values they stand for what the operators of an ordinary element type do, panics included. Then all of polynomial evaluation and arithmetic (in-place forms included, with what a panic leaves behind), complex arithmetic, dot products, sums and products of static vectors and matrices, and inner and matrix products of dynamic ones do to the represented values what they do over the ordinary element type: handles are never mixed up, results of earlier operations are never lost, and panics happen if and only if they would. This carries over to complex numbers and square matrices of handles as elements. An element type that only writes down the operations called on it simulates every element type that never panics: the evaluation of a polynomial of n coefficients, or the product of an l x m and an m x n matrix, is recorded once and for all without looking at any value, and replaying the tape over any element type with any inputs gives exactly what the function returns there.",
  "all worlds, all representations of values by handles, all operators (panicking ones included), all sizes, all nestings; for tapes all element types that never panic and all values of the inputs",
  "the worlds, representations and values are arbitrary; that one recording is valid for all inputs and all element types is a universal statement",
  f"{PO}: eval, Add, AddAssign, Sub, SubAssign, Neg, Mul", f"{CX}: Add, Sub, Mul, Div, Neg, Conj, sqr_norm", f"{SV}: Mul, AddAssign, SubAssign, MulAssign", f"{SM}: Mul, AddAssign, SubAssign, One, Zero", f"{DV}: Mul", f"{DM}: MulDMatrix, eval")
p("Complex products over f32 and f64: the sharp error bound, and what follows from it",
  "For every IEEE-754 format of at least four bits (f32 and f64 included) the product of two complex numbers always returns, and if both parts of the result are finite, it differs from the exact product by at most √5·u·|z·w|, u = 2^-p, plus 2√2·η if products of parts underflow (η is half of the smallest positive number); without underflow the relative error is at most √5·u. This cannot be improved: there are f32 numbers and f64 numbers, given explicitly, for which the relative error is at least √(5 - 168 u)·u and √(5 - 96 u)·u. The values of polynomials, dot products and static and dynamic matrix products over complex numbers inherit the bound (factor 1 + √5·u per product, 1 + u per sum), and the quotient of complex numbers whose parts are zero or of moderate magnitude is accurate to (1 + √5·u)(1 + u)²/(1 - 2u) - 1 in relative terms, at most 6.25·u for f32 and f64.",
  "all binary formats with p ≥ 4, all pairs of complex numbers with arbitrary (also subnormal) parts whose product is finite; all coefficient lists, sizes and entries",
  "no set of test inputs shows that the error never exceeds √5·u: there are 2^128 (f32) or 2^256 (f64) pairs, and the worst case needs cancellation, a specific binade of both partial products and a specific direction of four roundings",
  f"{CX}: Mul, Div, sqr_norm", f"{PO}: eval", f"{SV}: Mul", f"{SM}: Mul", f"{DM}: MulDMatrix, eval")
p("Errors of inner products and matrix products over f32 and f64 grow linearly with the size, whatever the size",
  "For every IEEE-754 format, every length n and all finite or non-finite entries: no floating point number is closer to the exact sum, difference or product of two numbers than the computed one; the dot product of two static or dynamic vectors of length n always returns, and if the result is finite it differs from the exact dot product by at most n·u·Σ|vᵢ|·|wᵢ| + n(1 + n·u)·η (u = 2^-p, η half of the smallest positive number), without any condition that n·u be small and without terms of second order; so does every finite entry of a static matrix product, of a matrix-vector product and of a dynamic matrix product, even if other entries of the result are not finite. Dot products of vectors without negative entries therefore have a relative error of at most n·u, up to underflow. The growth is real: for every format and every n there are vectors of n + 1 positive numbers whose dot product is computed as 1 while it is 1 + n·u. Over complex numbers (at least four bits) the dot product and the static and dynamic matrix products are off by at most (n·u·(1 + √5·u) + √5·u)·Σ|vᵢ|·|wᵢ| + n(1 + n·u)·2√2·η.",
  "all binary formats, all sizes, all entries with finite result, and the order of summation the code uses",
  "the bound must hold for vectors of any length, also of more than 2^p entries, and for every pattern of signs, magnitudes and roundings; measured errors of sample vectors are far below it",
  f"{SV}: Mul", f"{SM}: Mul", f"{DV}: Mul", f"{DM}: MulDMatrix, eval", f"{CX}: Mul, AddAssign")
p("Different ways of computing the same products give the same bits",
  "Bit for bit, not only up to rounding: (for every element type) the columns of a static matrix product are the products of the matrix and the columns, selecting, repeating or rearranging rows of the left and columns of the right factor does so with the static or dynamic product, the product of a row and a column is the dot product, and every coefficient of a product of polynomials is the dot product of a window of one coefficient vector and a reversed window of the other; (for every IEEE-754 format, real or complex entries) static and dynamic matrix products have the same entries, except that an entry that is the negative zero in the dynamic product is the positive zero in the static one, which happens exactly if all products of its row and its column are the negative zero; static and dynamic inner products are the same (the dynamic one conjugating the left vector); the transposed product is the product of the transposed factors; leaving out positions at which the product of the entries is a zero, wherever and however many, does not change a dot product, so vectors can be filled up with zeros paired with finite numbers; leading coefficients that are the positive zero do not change the value of a polynomial at finite numbers, and turn it into NaN at infinities.",
  "all formats, sizes, entries (also NaN, infinities, signed zeros), all selections of rows and columns, all sets of positions left out, all coefficient lists",
  "floating point addition is not associative, so that the same formula computed along another path in general gives another result; that it does not here, for any entries, signs of zeros and sizes, cannot be sampled",
  f"{SV}: Mul", f"{SM}: Mul", f"{DV}: Mul", f"{DM}: MulDMatrix, entry, eval", f"{PO}: Mul, eval")
p("Infinities and NaN never silently turn into finite results",
  "In every IEEE-754 format: a finite dot product (static) has only finite entries, finite products and finite partial sums; once a partial sum is infinite the result is this infinity or NaN, once it is NaN the result is NaN; the result is NaN exactly if some entry is NaN, a zero meets an infinity, or a partial sum is an infinity and the next product the opposite one; if the result is an infinity no product is NaN or the opposite infinity. So a finite entry of a (real or complex, static or dynamic) matrix product comes from a finite row and a finite column, and a NaN entry fills its row resp. column; a finite value of a polynomial comes from finite coefficients, a finite argument and finite values of all its tails, at NaN every polynomial with a coefficient is NaN; a finite coefficient of a product of polynomials comes from finite coefficients, and a NaN coefficient makes exactly the window of coefficients it takes part in NaN; one finite part of a complex product or quotient comes from operands all of whose parts are finite, a finite modulus, or a square root both of whose parts are finite, from a finite number. What does disappear: an overflow of the squared modulus of the divisor in a complex division, which gives a zero.",
  "all formats, vector lengths, matrix shapes, polynomials and entries, also NaN, infinities and signed zeros, at any position",
  "an exceptional value may appear at any position of any operand, and also as an intermediate result of any step; tests see a few positions",
  f"{SV}: Mul", f"{SM}: Mul", f"{DM}: MulDMatrix, entry, eval", f"{PO}: Mul, eval", f"{CX}: Mul, Div, abs, sqrt")
p("What nested containers compute: composition, several variables, blocks, matrices of polynomials",
  "For every element type whose operations implement a commutative ring: evaluating a polynomial with constant polynomials as coefficients at a polynomial gives the composition; polynomials of polynomials are polynomials in two variables: inserting the outer and then the inner variable gives the same as inserting the inner one in every coefficient first, and the variables can be exchanged by transposing the array of coefficients; multiplying matrices of polynomials and evaluating gives the product of the evaluated matrices; a polynomial with matrix coefficients at a multiple of the unit matrix, or with complex coefficients at a real number, is evaluated entry by entry, part by part; matrices of square blocks are multiplied like the matrices of all entries; the characteristic polynomial of a matrix evaluated at the matrix is zero (Cayley-Hamilton); if the ring has no zero divisors, polynomials with at most n coefficients that have equal values at n different points have equal coefficients (not so for wrapping integers). Over floats of every IEEE-754 format the product of complex numbers and that of the 2 x 2 matrices they stand for have the same bits, up to signs of zeros.",
  "all commutative rings and element types implementing them, all sizes, degrees, coefficient lists and points; for the last claim all formats and all complex numbers, also with NaN, infinities and signed zeros",
  "these are identities between different nestings of containers, for unbounded degrees and sizes; tests can only compare single values",
  f"{PO}: eval, Mul", f"{SM}: Mul", f"{CX}: Mul")
p("Self-validating numbers: midpoints and radii computed with ordinary float operations",
  "An element type of two floats of any IEEE-754 format, a midpoint and a radius, whose radii are computed with the usual operations rounding to nearest (every result y becomes y + y * 8 EPSILON + twice the smallest positive number, there is no change of the rounding mode), is self-validating in every program that uses this crate's operations on its numbers, vectors, matrices, polynomials and complex numbers: the midpoints are bit for bit what the program computes with plain floats, the program ends in the same way, and unless the midpoint or the radius is infinite or NaN the exact result for all exact inputs within the given radii is within the computed radius of the computed midpoint; in particular a comparison of floats, midpoint > radius, proves that the exact result is positive. The radius of a sum or a product is at most (1 + 44 u)^4 times the textbook bound (errors of the operands and one rounding) plus 50000 times the smallest positive number.",
  "all formats, all programs (straight-line compositions of the crate's operations), all sizes, all inputs and radii, including NaN, infinities, overflow and underflow",
  "the enclosure must hold for every input and every accumulated rounding error in the midpoints and in the radii themselves, and the exact result is not available to a test",
  f"{CX}: Mul", f"{SV}: dot", f"{SM}: Mul", f"{PO}: eval, Mul", f"{DM}: Mul")
p("A priori: absence of overflow and textbook error bounds for every program, from bounds of the inputs alone",
  "For every program that uses this crate's operations on numbers, vectors, matrices, polynomials and complex numbers over floats of any IEEE-754 format: run once with bounds of the magnitudes of the inputs in place of the inputs (an element type whose sums and differences both add and whose products multiply, computed in the same floating point format), it returns bounds of everything it can return for inputs within the bounds; wherever a bound is finite, no overflow and no NaN can occur for any such inputs. The error of every finite result is at most ((1 + u)^d - 1) S + N eta, where S is the result of the program with the absolute values and sums for differences, d counts the roundings piled up (sums: the larger of the operands plus one, products: their sum plus one), N allows for underflow; d depends only on the program and the sizes of the arguments, not on their entries.",
  "all formats, all programs (straight-line compositions of the crate's operations), all sizes, all bounds and all finite inputs within them",
  "that no input within the bounds overflows, and the bound of the error for all of them, are statements about all inputs; testing can only sample them",
  f"{CX}: Mul", f"{SV}: dot", f"{SM}: Mul", f"{PO}: eval, Mul", f"{DM}: Mul")
p("Randomized checks: wrong products are caught with the textbook probability",
  "Checking a matrix product without computing it, a*(b*v) == c*v for a random vector v of zeros and ones (Freivalds' test), with static or dynamic matrices: whatever v, the check never rejects the right c; if c is wrong in at least one entry, at most half of all vectors of zeros and ones pass, so at most a fraction of 2^-k of k independent vectors - over every ring, in particular with wrapping integers modulo 2^w, where other choices of v would not do. Checking a polynomial product by p.eval(x) * q.eval(x) == r.eval(x): never rejects the right r; over rings without zero divisors a wrong r (as a polynomial) passes for fewer points than the product, or r, has coefficients.",
  "all rings and element types implementing them with a lawful ==, all sizes, all matrices and polynomials, all vectors and points, all numbers of repetitions",
  "the probability is a count over all vectors for all wrong products; tests can only sample them",
  f"{SM}: Mul", f"{DM}: Mul", f"{PO}: eval, Mul")
p("A program that returns in a debug build returns the same in release builds, on larger machines and with wider integers",
  "Take any program on numbers, complex numbers, vectors, matrices, polynomials and views over machine integers. If it returns a result in a build with overflow checks, it returns the same numbers in a build without overflow checks, on every machine whose addresses have at least as many bits, and with any wider integer type (the inputs and results being cast to it). The same holds with complex elements, and for every other element type as far as indices are concerned. If it panics in the checked build for another reason than overflow, it panics for the same reason in all these other builds. Without overflow checks narrowing commutes with every program: calculating with the wider type and then casting the result with `as` gives the same bits - and the same panics - as casting the inputs and calculating with the narrower type.",
  "all programs of the model's language, all inputs, all widths of integers and addresses",
  "a relation between runs of every program in different builds, machines and types; a test runs one program on one machine",
  f"{SV}: Index, Mul", f"{SM}: Mul", f"{DM}: Index, Mul, transpose", f"{PO}: Mul, eval", f"{CX}: Mul")
with open("properties.jsonl","w") as f:
    for x in P: f.write(json.dumps(x)+"\n")
print(len(P))
