{"id": "C01", "title": "Redshift and scale factor convert back and forth exactly", "statement": "a2z(z2a(z)) = z for every z != -1 and z2a(a2z(a)) = a for every a != 0; z >= 0 maps onto 0 < a <= 1 and z2a is strictly decreasing there.", "quantifier": "all real redshifts and scale factors", "why_tests_cant": "An identity and a monotonicity over a continuum; tests sample points.", "anchors": ["jax_cosmo/utils.py: z2a, a2z"]}
{"id": "C02", "title": "Friedmann closure today", "statement": "For every cosmology (any curvature, any w0/wa, any densities) Esqr(cosmo, 1) = 1 and H(cosmo, 1) = 100 km/s/(Mpc/h).", "quantifier": "all parameter values of Cosmology", "why_tests_cant": "Ranges over an 8-dimensional continuum of parameters.", "anchors": ["jax_cosmo/background.py: Esqr, H, f_de", "jax_cosmo/core.py: Cosmology.Omega, Omega_m, Omega_de"]}
{"id": "C03", "title": "Density fractions sum to one at every epoch", "statement": "Omega_m_a(a) + Omega_de_a(a) + Omega_k a^-2 / Esqr(a) = 1 at every scale factor where Esqr is non-zero, and for non-negative densities each fraction lies in [0,1].", "quantifier": "all cosmologies and all scale factors a > 0", "why_tests_cant": "Continuum of parameters and scale factors.", "anchors": ["jax_cosmo/background.py: Omega_m_a, Omega_de_a, Esqr"]}
{"id": "C04", "title": "Dark-energy evolution is the integral of its equation of state", "statement": "f_de(a) = -3 * integral from 1 to a of (1 + w(a'))/a' da', so f_de(1) = 0; for w0=-1, wa=0 the dark-energy density is constant at all times.", "quantifier": "all w0, wa and all a > 0", "why_tests_cant": "Equality with an analytic integral for all parameters.", "anchors": ["jax_cosmo/background.py: w, f_de"]}
{"id": "C05", "title": "Expansion rate is positive and decreases with time", "statement": "With Omega_m > 0, Omega_k >= 0, Omega_de >= 0, Esqr(a) > 0 and H(a) > 0 for every a > 0; if moreover w(a) >= -1 for all 0<a<=1 then H is non-increasing in a on (0,1], so H(a) >= 100.", "quantifier": "all such cosmologies, all scale factors", "why_tests_cant": "Positivity and monotonicity over a continuum.", "anchors": ["jax_cosmo/background.py: Esqr, H"]}
{"id": "C06", "title": "Radial comoving distance: zero today, never negative, decreasing in a", "statement": "radial_comoving_distance(cosmo, 1) = 0, the result is >= 0 for every a (even outside the table), is 0 for a >= 1 and never increases when a increases, for every cosmology with Esqr > 0.", "quantifier": "all cosmologies with positive Esqr, all pairs of scale factors, any table size and range", "why_tests_cant": "The function goes through RK4, tabulation and nearest-neighbour interpolation; monotonicity needs every pair of points.", "anchors": ["jax_cosmo/background.py: radial_comoving_distance, dchioverda", "jax_cosmo/scipy/interpolate.py: interp", "jax_cosmo/scipy/ode.py: odeint"]}
{"id": "C07", "title": "Radial comoving distance is the quadrature of R_H/(a^2 E)", "statement": "At each tabulated scale factor the returned distance equals the composite Simpson rule in ln a for R_H * integral da/(a^2 E(a)) from that scale factor to 1; in the empty (Milne) universe this is exactly -R_H ln a.", "quantifier": "all cosmologies, all table sizes, every table node", "why_tests_cant": "Every node of every table size; tests compare against CCL at a few settings to 1e-2.", "anchors": ["jax_cosmo/background.py: radial_comoving_distance, dchioverda", "jax_cosmo/scipy/ode.py: odeint"]}
{"id": "C08", "title": "a_of_chi inverts radial_comoving_distance", "statement": "a_of_chi(cosmo, radial_comoving_distance(cosmo, a)) = a for every a in the tabulated range.", "quantifier": "all cosmologies with positive Esqr and all a in [1e-3, 1]", "why_tests_cant": "Needs every point between table nodes; a test at the nodes cannot see the wrong segment being used between nodes.", "anchors": ["jax_cosmo/background.py: a_of_chi, radial_comoving_distance", "jax_cosmo/scipy/interpolate.py: interp"]}
{"id": "C09", "title": "Transverse distance follows the curvature of the universe", "statement": "transverse_comoving_distance equals chi when Omega_k = 0, is R_H/sqrt(Omega_k) sinh(...) >= chi when Omega_k > 0 and R_H/sqrt|Omega_k| sin(...) <= chi when Omega_k < 0; it tends to chi as Omega_k -> 0 at fixed chi; angular_diameter_distance is a times it.", "quantifier": "all values of Omega_k and all distances", "why_tests_cant": "Branch choice by the sign of a real parameter, and a limit.", "anchors": ["jax_cosmo/background.py: transverse_comoving_distance, angular_diameter_distance", "jax_cosmo/core.py: Cosmology.k, sqrtk"]}
{"id": "C10", "title": "Growth factor is normalised to one today and lies in [0,1]", "statement": "growth_factor(cosmo, 1) = 1 and 0 <= growth_factor(cosmo, a) <= 1 for every a, both with and without the gamma parametrisation.", "quantifier": "all cosmologies and scale factors, both growth parametrisations", "why_tests_cant": "Continuum of inputs and two code paths sharing one cache.", "anchors": ["jax_cosmo/background.py: growth_factor, _growth_factor_ODE, _growth_factor_gamma"]}
{"id": "C11", "title": "Einstein-de Sitter growth is exact", "statement": "For Omega_m = 1, Omega_k = 0 growth_factor(a) = a for every 0 <= a <= 1 and growth_rate(a) = 1, in both parametrisations and for every gamma; for gamma = 0 the same holds in any cosmology.", "quantifier": "all a in [0,1], all gamma, all dark-energy parameters, any table size", "why_tests_cant": "An exact statement about a numerical ODE solve plus interpolation at all points.", "anchors": ["jax_cosmo/background.py: _growth_factor_ODE, _growth_rate_ODE, _growth_factor_gamma, _growth_rate_gamma"]}
{"id": "C12", "title": "Gamma growth rate is Omega_m(a)^gamma", "statement": "When gamma is given growth_rate(a) = Omega_m_a(a)^gamma, lies in (0,1] for gamma >= 0 and non-negative densities, and the growth factor is non-decreasing in a.", "quantifier": "all cosmologies with gamma, all scale factors", "why_tests_cant": "Continuum of inputs; monotonicity over all pairs through a numerical table.", "anchors": ["jax_cosmo/background.py: growth_rate, _growth_rate_gamma, _growth_factor_gamma"]}
{"id": "C13", "title": "Cached background tables are transparent", "statement": "For every sequence of background calls (radial_comoving_distance, a_of_chi, transverse_comoving_distance, angular_diameter_distance, growth_factor, growth_rate) with default table settings on one Cosmology object, every call returns what it returns on a fresh object with the same parameters, never fails on a missing cache entry, and never changes the parameters.", "quantifier": "all finite call sequences on one object, all parameters and arguments", "why_tests_cant": "Quantifies over all histories of a mutable cache.", "anchors": ["jax_cosmo/core.py: Cosmology._workspace", "jax_cosmo/background.py: radial_comoving_distance, a_of_chi, growth_factor, growth_rate"]}
{"id": "C14", "title": "Table settings passed to radial_comoving_distance take effect", "statement": "The value returned by radial_comoving_distance(cosmo, a, log10_amin, steps) depends only on its arguments, not on earlier calls with other settings.", "quantifier": "all histories of calls with varying log10_amin and steps", "why_tests_cant": "Quantifies over histories of a cache that is not keyed by its settings.", "anchors": ["jax_cosmo/background.py: radial_comoving_distance"]}
{"id": "C15", "title": "Background functions accept scalars as documented", "statement": "Each background function documented to take array_like a and return a float for scalar input accepts a scalar scale factor.", "quantifier": "all background functions and scalar inputs", "why_tests_cant": "A shape-level contract over every entry point.", "anchors": ["jax_cosmo/background.py: growth_factor, growth_rate, radial_comoving_distance, a_of_chi", "jax_cosmo/scipy/interpolate.py: interp"]}
{"id": "C16", "title": "A Cosmology survives JAX flattening", "statement": "For every Cosmology, tree_unflatten(tree_flatten(cosmo)) is a cosmology with the same parameters (gamma included), the same growth mode and an empty workspace.", "quantifier": "all cosmologies with and without gamma", "why_tests_cant": "Round trip over all values of an optional field; the test-suite never flattens a gamma cosmology.", "anchors": ["jax_cosmo/core.py: Cosmology.tree_flatten, tree_unflatten"]}
{"id": "C17", "title": "Containers, redshift distributions, biases and NumberCounts survive JAX flattening", "statement": "tree_unflatten(tree_flatten(x)) has the same class, parameters, configuration and galaxy density as x, recursively through nested containers, and crossing a jit boundary any number of times changes nothing a later call can observe.", "quantifier": "all nested containers of any depth", "why_tests_cant": "Arbitrary nesting depth and any number of crossings.", "anchors": ["jax_cosmo/jax_utils.py: container", "jax_cosmo/redshift.py: redshift_distribution.tree_flatten, tree_unflatten", "jax_cosmo/probes.py: NumberCounts", "jax_cosmo/bias.py"]}
{"id": "C18", "title": "A WeakLensing probe survives JAX flattening", "statement": "tree_unflatten(tree_flatten(p)) has the same redshift bins, multiplicative bias and intrinsic-alignment bias as p, so kernel() is the same before and after p crosses a jit boundary.", "quantifier": "all WeakLensing probes, with and without intrinsic alignment", "why_tests_cant": "Round trip over all parameter values; the constructor's positional order differs from the stored order.", "anchors": ["jax_cosmo/probes.py: WeakLensing.__init__, kernel", "jax_cosmo/jax_utils.py: container.tree_unflatten"]}
{"id": "C19", "title": "interp is piecewise-linear interpolation of the table", "statement": "For strictly increasing xp and any x between xp[0] and xp[-1], interp returns the value on the chord of the table segment containing x; in particular interp(xp[i]) = fp[i] at every node.", "quantifier": "all table lengths, all strictly increasing tables, all query points", "why_tests_cant": "All lengths, all tables and all positions inside a segment.", "anchors": ["jax_cosmo/scipy/interpolate.py: interp"]}
{"id": "C20", "title": "interp on decreasing tables", "statement": "For strictly decreasing xp (as used for a_of_chi and the halofit non-linear scale) interp also returns the value on the chord of the segment containing x.", "quantifier": "all strictly decreasing tables and query points", "why_tests_cant": "Needs every position inside a segment; errors are invisible at the nodes.", "anchors": ["jax_cosmo/scipy/interpolate.py: interp", "jax_cosmo/background.py: a_of_chi", "jax_cosmo/power.py: _halofit_parameters"]}
{"id": "C21", "title": "interp reproduces affine tables everywhere and preserves order", "statement": "If fp = s*xp + c then interp(x) = s*x + c for every x, inside or outside the table; on increasing xp a monotone fp gives a monotone interpolant on the whole real line.", "quantifier": "all tables with distinct abscissae, all query points including extrapolation", "why_tests_cant": "All tables, all points.", "anchors": ["jax_cosmo/scipy/interpolate.py: interp"]}
{"id": "C22", "title": "Simpson rule: exact on cubics, linear, positive, oriented", "statement": "simps(f,a,b,N) raises ValueError for odd N; for even N >= 2 it equals the integral for every cubic polynomial, is linear in f, non-negative for f >= 0 and a <= b, additive sign under swapping a and b.", "quantifier": "all intervals, all even N, all functions (cubics for exactness)", "why_tests_cant": "All polynomials, all N.", "anchors": ["jax_cosmo/scipy/integrate.py: simps"]}
{"id": "C23", "title": "Simpson rule converges at fourth order", "statement": "|simps(f,a,b,N) - integral| <= (b-a)^5 M/(180 N^4) for every four-times differentiable f with fourth derivative bounded by M.", "quantifier": "all such functions, intervals and even N", "why_tests_cant": "An error bound for all functions and all N.", "anchors": ["jax_cosmo/scipy/integrate.py: simps"]}
{"id": "C24", "title": "Romberg integration builds the Romberg tableau and is exact on polynomials", "statement": "For divmax = m >= 1 romb returns the diagonal entry R(m,m) of the Romberg tableau built from trapezoid sums on 2^i panels (the padding entries of the state never leak), so it is exact for every polynomial of degree <= 2m+1 and is linear in the integrand.", "quantifier": "all integrands, all intervals, all divmax >= 1", "why_tests_cant": "All orders m and all polynomials; padding leakage depends on m.", "anchors": ["jax_cosmo/scipy/integrate.py: romb, _difftrap1, _difftrapn, _romberg_diff"]}
{"id": "C25", "title": "Romberg integration accepts every divmax", "statement": "romb(f,a,b,divmax) returns a value for every divmax >= 0, with divmax = 0 giving the one-panel trapezoid.", "quantifier": "all divmax", "why_tests_cant": "A boundary case outside every call made in the tests.", "anchors": ["jax_cosmo/scipy/integrate.py: romb"]}
{"id": "C26", "title": "The ODE solver is the classical RK4 scheme on the given grid", "statement": "odeint returns one state per time, the first equal to y0; the result on a prefix of the grid is the prefix of the result; each step is consistent to fourth order: a right-hand side that is a cubic polynomial in t alone is solved exactly and y' = lambda y advances by 1+z+z^2/2+z^3/6+z^4/24 with z = lambda h.", "quantifier": "all grids, all right-hand sides, all initial states (cubic or linear right-hand sides for the exactness clauses)", "why_tests_cant": "All grid lengths and spacings.", "anchors": ["jax_cosmo/scipy/ode.py: odeint"]}
{"id": "C27", "title": "Splines pass through their data", "statement": "For strictly increasing x, InterpolatedUnivariateSpline(x, y, k)(x[i]) = y[i] for every node and k in {1,2,3}, including the last one.", "quantifier": "all data lengths above the minimum, all strictly increasing abscissae, all ordinates, k=1,2,3, both endpoint modes", "why_tests_cant": "All sizes and node positions.", "anchors": ["jax_cosmo/scipy/interpolate.py: InterpolatedUnivariateSpline.__init__, __call__, _compute_coeffs"]}
{"id": "C28", "title": "Splines are smooth of order k-1", "statement": "The degree-k spline is k-1 times continuously differentiable on the whole line: adjacent pieces agree in value and derivatives below k at the shared knot, and the linear system that defines the pieces is always solvable.", "quantifier": "all strictly increasing data of admissible length, k=1,2,3", "why_tests_cant": "Solvability of an n x n system and matching at every knot for every n.", "anchors": ["jax_cosmo/scipy/interpolate.py: InterpolatedUnivariateSpline.__init__, _compute_coeffs"]}
{"id": "C29", "title": "Cubic not-a-knot endpoints", "statement": "With endpoints='not-a-knot' the third derivative is continuous across the second and the second-to-last data points, and the spline of data sampled from a cubic is that cubic everywhere.", "quantifier": "all data lengths >= 4, all cubics", "why_tests_cant": "Uniqueness of the solution of an n x n system for every n.", "anchors": ["jax_cosmo/scipy/interpolate.py: InterpolatedUnivariateSpline.__init__"]}
{"id": "C30", "title": "Cubic natural endpoints", "statement": "With endpoints='natural' the second derivative of the spline vanishes at both the first and the last data point.", "quantifier": "all data", "why_tests_cant": "The tests never use endpoints='natural'.", "anchors": ["jax_cosmo/scipy/interpolate.py: InterpolatedUnivariateSpline.__init__"]}
{"id": "C31", "title": "Spline derivative() is the derivative of the spline", "statement": "derivative(x, n) is the n-th derivative of the function computed by calling the spline, at every x (away from the knots for n = k), and is rejected for n > k.", "quantifier": "all splines, all x, all orders n", "why_tests_cant": "Equality with an analytic derivative at all points.", "anchors": ["jax_cosmo/scipy/interpolate.py: InterpolatedUnivariateSpline.derivative, __call__"]}
{"id": "C32", "title": "Spline integral is the integral of the spline", "statement": "integral(a,b) equals the integral from a to b of the spline for every a and b in any order, inside or outside the data range; so integral(a,b) = -integral(b,a) and it is additive.", "quantifier": "all splines, all limits", "why_tests_cant": "Equality with an analytic integral for all limits and all numbers of pieces.", "anchors": ["jax_cosmo/scipy/interpolate.py: InterpolatedUnivariateSpline.antiderivative, integral"]}
{"id": "C33", "title": "A spline survives JAX flattening", "statement": "tree_unflatten(tree_flatten(s)) evaluates identically to s and does not solve the linear system again.", "quantifier": "all splines", "why_tests_cant": "Round trip over all splines.", "anchors": ["jax_cosmo/scipy/interpolate.py: InterpolatedUnivariateSpline.tree_flatten, tree_unflatten"]}
{"id": "C34", "title": "to_dense places each diagonal where the format says", "statement": "to_dense of a (ny,nx,nd) array is the (ny*nd)x(nx*nd) matrix whose entry (i*nd+p, j*nd+q) is sparse[i,j,p] if p=q and 0 otherwise; inputs that are not 3-dimensional raise ValueError; the map is injective and additive.", "quantifier": "all block counts and block sizes, all values", "why_tests_cant": "All shapes.", "anchors": ["jax_cosmo/sparse.py: to_dense, check_sparse"]}
{"id": "C35", "title": "Every sparse product equals the dense product", "statement": "For compatible operands dot(A,B) (sparse-vector, sparse-dense, vector-sparse, dense-sparse, sparse-sparse) and dot(A,B,C) equal the corresponding products of the dense matrices.", "quantifier": "all shapes and values", "why_tests_cant": "All shapes; equality of reshaped index arithmetic with matrix multiplication.", "anchors": ["jax_cosmo/sparse.py: dot, sparse_dot_vec, sparse_dot_dense, vec_dot_sparse, dense_dot_sparse, sparse_dot_sparse, dense_dot_sparse_dot_dense"]}
{"id": "C36", "title": "dot rejects operands whose shapes do not multiply", "statement": "dot raises ValueError whenever the dense shapes are incompatible, the number of operands is not 2 or 3, or the product is not representable; whenever it returns, the result is the matrix product.", "quantifier": "all operand ranks and shapes", "why_tests_cant": "All shape combinations, including ones with equal total size but different block size.", "anchors": ["jax_cosmo/sparse.py: dot, sparse_dot_sparse"]}
{"id": "C37", "title": "Sparse inverse is the inverse", "statement": "For a square sparse matrix whose dense form is invertible, to_dense(inv(S)) is the inverse of to_dense(S), and inv(inv(S)) = S; non-square input raises ValueError.", "quantifier": "all sizes and invertible matrices", "why_tests_cant": "All sizes.", "anchors": ["jax_cosmo/sparse.py: inv"]}
{"id": "C38", "title": "Sparse determinant is the determinant", "statement": "slogdet returns (sign, logdet) with sign*exp(logdet) = det(to_dense(S)) and det(S) = det(to_dense(S)) for every square sparse matrix with invertible dense form.", "quantifier": "all sizes and all invertible sparse matrices", "why_tests_cant": "All sizes; correctness of a block Schur recursion.", "anchors": ["jax_cosmo/sparse.py: slogdet, _block_det, det"]}
{"id": "C39", "title": "Linear power spectrum has the requested sigma8", "statement": "Evaluating the library's own top-hat variance at R = 8 Mpc/h on the returned z=0 linear power spectrum gives exactly sigma8^2, for every transfer function; rescaling the transfer function by a constant changes nothing.", "quantifier": "all cosmologies, all transfer functions with non-zero variance", "why_tests_cant": "All transfer functions (a function argument).", "anchors": ["jax_cosmo/power.py: linear_matter_power, sigmasqr, primordial_matter_power"]}
{"id": "C40", "title": "Linear power scales with growth squared", "statement": "linear_matter_power(k,a) = growth_factor(a)^2 * linear_matter_power(k,1), is proportional to sigma8^2, and is non-negative for k > 0.", "quantifier": "all k > 0, a, cosmologies and transfer functions", "why_tests_cant": "Continuum of inputs and functions.", "anchors": ["jax_cosmo/power.py: linear_matter_power"]}
{"id": "C41", "title": "sigmasqr integrates over the requested wavenumbers", "statement": "sigmasqr(cosmo,R,transfer_fn,kmin,kmax) integrates k^3 P(k) W^2(kR)/(2 pi^2) d ln k from kmin to kmax.", "quantifier": "all kmin, kmax and transfer functions", "why_tests_cant": "Tests only check ratios in which the error of the range cancels.", "anchors": ["jax_cosmo/power.py: sigmasqr"]}
{"id": "C42", "title": "Non-linear power is positive and dispatches on the prescription", "statement": "halofit with prescription 'takahashi2012' returns a strictly positive spectrum whenever the linear spectrum and Omega_m(a) are positive; an unknown prescription raises NotImplementedError; nonlinear_matter_power with nonlinear_fn=linear returns the linear spectrum; the non-linear scale is always in (0, 1e6].", "quantifier": "all k > 0, a, cosmologies, effective slopes and curvatures", "why_tests_cant": "Continuum of inputs through many fitted exponents.", "anchors": ["jax_cosmo/power.py: halofit, _halofit_parameters, nonlinear_matter_power, linear"]}
{"id": "C43", "title": "No-wiggle transfer function lies in (0,1] and falls with q", "statement": "Eisenstein_Hu(type='eisenhu') lies in (0,1] for every k >= 0 whenever the shape correction is positive and equals 1 at k = 0; an unknown type raises NotImplementedError.", "quantifier": "all cosmologies with positive densities and all k >= 0", "why_tests_cant": "Continuum of inputs.", "anchors": ["jax_cosmo/transfer.py: Eisenstein_Hu"]}
{"id": "C44", "title": "Transfer function tends to one on large scales", "statement": "For both types Eisenstein_Hu(cosmo,k) -> 1 as k -> 0+, for every cosmology with positive matter and baryon densities.", "quantifier": "all cosmologies with 0 < Omega_b < Omega_m, h > 0", "why_tests_cant": "A limit.", "anchors": ["jax_cosmo/transfer.py: Eisenstein_Hu"]}
{"id": "C45", "title": "Redshift distributions are normalised by the library's quadrature", "statement": "For every extended (not single-plane) redshift distribution with non-zero norm, the Simpson integral of n(z) over [0, zmax] with 256 intervals is exactly 1, whatever order and number of earlier calls; the normalised n(z) does not change if pz_fn is rescaled.", "quantifier": "all redshift distributions, all histories of calls on the object", "why_tests_cant": "All function shapes and histories of the cached norm.", "anchors": ["jax_cosmo/redshift.py: redshift_distribution.__call__, smail_nz, kde_nz, systematic_shift, delta_nz"]}
{"id": "C46", "title": "KDE redshift distribution is a weighted mixture", "statement": "kde_nz's density is non-negative, integrates to 1 over the real line, is invariant under rescaling all weights and under permuting the catalogue together with its weights.", "quantifier": "all catalogues, positive weight sums and bandwidths > 0", "why_tests_cant": "All catalogue sizes.", "anchors": ["jax_cosmo/redshift.py: kde_nz.pz_fn, _kernel"]}
{"id": "C47", "title": "systematic_shift shifts the parent distribution", "statement": "systematic_shift(parent, bias)(z) is proportional to parent's n(z - bias) for z >= bias; with zero bias and equal zmax it equals the parent on z >= 0; shifts compose additively while staying above the clip.", "quantifier": "all parent distributions, biases and redshifts", "why_tests_cant": "All parents (a function) and points.", "anchors": ["jax_cosmo/redshift.py: systematic_shift.pz_fn"]}
{"id": "C48", "title": "Lensing kernel keeps bins in order", "statement": "For any mixture and order of extended and single-plane redshift bins, row i of the weak lensing kernel is the kernel of bin i, computed with the common zmax.", "quantifier": "all lists of bins of any length and mixture", "why_tests_cant": "All permutations of any length.", "anchors": ["jax_cosmo/probes.py: weak_lensing_kernel"]}
{"id": "C49", "title": "Lensing kernel is non-negative and vanishes behind the sources", "statement": "The weak lensing kernel is >= 0 for z >= 0, ell >= 1 and non-negative n(z); it is 0 for z >= zmax and, for a single-plane bin, for z >= z0.", "quantifier": "all cosmologies with positive Esqr and Omega_m, all bins, redshifts and multipoles", "why_tests_cant": "Continuum of inputs, any number of bins.", "anchors": ["jax_cosmo/probes.py: weak_lensing_kernel"]}
{"id": "C50", "title": "Spin-2 prefactor is within [0,1)", "statement": "The ell factor sqrt((l-1)l(l+1)(l+2))/(l+1/2)^2 used by lensing and alignment kernels is in [0,1) for every l >= 1, is 0 at l = 1 and tends to 1.", "quantifier": "all real l >= 1", "why_tests_cant": "Continuum and a limit.", "anchors": ["jax_cosmo/probes.py: weak_lensing_kernel, nla_kernel"]}
{"id": "C51", "title": "Probe systematics act linearly", "statement": "A multiplicative bias m rescales the lensing kernel by 1+m bin by bin (a list of equal values behaves like the scalar), the alignment term is linear in its bias, number-count kernels are linear in the galaxy bias, and a per-bin list of the same bias equals the single bias.", "quantifier": "all bins, biases, cosmologies, redshifts", "why_tests_cant": "All functions and list lengths.", "anchors": ["jax_cosmo/probes.py: WeakLensing.kernel, density_kernel, nla_kernel", "jax_cosmo/bias.py"]}
{"id": "C52", "title": "Unsupported single-plane kernels are refused", "statement": "density_kernel and nla_kernel raise NotImplementedError exactly when some bin is a delta distribution.", "quantifier": "all lists of bins", "why_tests_cant": "All list lengths and positions.", "anchors": ["jax_cosmo/probes.py: density_kernel, nla_kernel"]}
{"id": "C53", "title": "Bias models have their documented normalisation", "statement": "constant_linear_bias is constant in z; inverse_growth_linear_bias equals b at z = 0 and is never below b for z >= 0, b >= 0; des_y1_ia_bias equals A at the pivot redshift.", "quantifier": "all parameters and redshifts", "why_tests_cant": "Continuum of inputs.", "anchors": ["jax_cosmo/bias.py: constant_linear_bias, inverse_growth_linear_bias, des_y1_ia_bias"]}
{"id": "C54", "title": "Spectra ordering enumerates each tracer pair once", "statement": "The order of angular spectra for N tracers lists every pair (i,j) with i <= j < N exactly once, N(N+1)/2 in all, with (i,j) at position i*N - i(i-1)/2 + (j-i), where tracers are numbered through the probe list.", "quantifier": "all probe lists and tracer counts", "why_tests_cant": "All N.", "anchors": ["jax_cosmo/angular_cl.py: _get_cl_ordering"]}
{"id": "C55", "title": "Covariance blocks pair the right spectra", "statement": "Block (I,J) of the covariance for spectra (i,j) and (m,n) refers to the spectra (i,m),(j,n),(i,n),(j,m), each looked up irrespective of index order, and the lookup never fails.", "quantifier": "all probe lists and all block positions", "why_tests_cant": "All N and all N^2(N+1)^2/4 blocks.", "anchors": ["jax_cosmo/angular_cl.py: _get_cov_blocks_ordering"]}
{"id": "C56", "title": "Auto spectra are non-negative and spectra obey Cauchy-Schwarz", "statement": "For a non-negative power spectrum, angular_cl gives C_ii >= 0, C_ij^2 <= C_ii C_jj, and the matrix C_ij(ell) is positive semi-definite, for any probes and any ell.", "quantifier": "all probes, all multipoles, all power spectra >= 0", "why_tests_cant": "All numbers of tracers.", "anchors": ["jax_cosmo/angular_cl.py: angular_cl"]}
{"id": "C57", "title": "Angular spectra do not depend on which other probes are present", "statement": "The spectrum of two tracers computed within a longer probe list with the same maximum redshift equals that computed from their probes alone, and permuting probes permutes the spectra.", "quantifier": "all probe lists", "why_tests_cant": "All list lengths and positions.", "anchors": ["jax_cosmo/angular_cl.py: angular_cl, _get_cl_ordering"]}
{"id": "C58", "title": "Noise enters only auto-spectra", "statement": "noise_cl at the position of (i,j) is the noise of tracer i if i = j and 0 otherwise, constant in ell, in the same ordering as angular_cl; with positive galaxy density lensing noise is sigma_e^2/ngal and clustering noise 1/ngal, strictly positive.", "quantifier": "all probe lists, tracer pairs and multipoles", "why_tests_cant": "All N.", "anchors": ["jax_cosmo/angular_cl.py: noise_cl", "jax_cosmo/probes.py: WeakLensing.noise, NumberCounts.noise", "jax_cosmo/redshift.py: gals_per_steradian"]}
{"id": "C59", "title": "Covariance is the Gaussian (Wick) covariance and symmetric", "statement": "Entry ((i,j),(m,n)) at multipole l is (C_im C_jn + C_in C_jm)/((2l+1) dl f_sky) with C = signal + noise looked up symmetrically; different multipoles are uncorrelated; the matrix is symmetric.", "quantifier": "all probe lists, multipoles, f_sky", "why_tests_cant": "All N and all entries.", "anchors": ["jax_cosmo/angular_cl.py: gaussian_cl_covariance"]}
{"id": "C60", "title": "Covariance is positive (semi-)definite", "statement": "If at each multipole the matrix of observed spectra is positive semi-definite (which holds for spectra and noise computed by the library from a non-negative power spectrum) and the normalisation is positive, the covariance is positive semi-definite; with strictly positive noise it is positive definite.", "quantifier": "all probe lists, all numbers of multipoles", "why_tests_cant": "Definiteness of a matrix of arbitrary size.", "anchors": ["jax_cosmo/angular_cl.py: gaussian_cl_covariance, gaussian_cl_covariance_and_mean"]}
{"id": "C61", "title": "Sparse and dense covariances are the same matrix", "statement": "to_dense(gaussian_cl_covariance(..., sparse=True)) equals gaussian_cl_covariance(..., sparse=False), and the flattened mean vector uses the same index order as the rows of the covariance.", "quantifier": "all probe lists and numbers of multipoles", "why_tests_cant": "All shapes; a reshape/transpose identity.", "anchors": ["jax_cosmo/angular_cl.py: gaussian_cl_covariance, gaussian_cl_covariance_and_mean", "jax_cosmo/sparse.py: to_dense"]}
{"id": "C62", "title": "Bandwidth weights are positive", "statement": "The normalisation (2l+1) * gradient(l) * f_sky is positive for strictly increasing positive multipoles and f_sky > 0, equals the exact spacing on uniform grids, and a single multipole is refused.", "quantifier": "all multipole grids", "why_tests_cant": "All grid lengths.", "anchors": ["jax_cosmo/angular_cl.py: gaussian_cl_covariance"]}
{"id": "C63", "title": "Log-likelihood does not depend on the covariance representation", "statement": "gaussian_log_likelihood gives the same value for a sparse covariance and its dense equivalent, and for inverse_method 'inverse' and 'cholesky' when the covariance is symmetric positive definite; any other method on a dense covariance raises NotImplementedError.", "quantifier": "all data, means and positive-definite covariances of any size", "why_tests_cant": "All sizes and matrices.", "anchors": ["jax_cosmo/likelihood.py: gaussian_log_likelihood", "jax_cosmo/sparse.py: inv, slogdet, dot"]}
{"id": "C64", "title": "Log-likelihood is the Gaussian log density up to a constant", "statement": "With include_logdet=True the value differs from the multivariate normal log density log N(data; mu, C) only by the constant -(N/2) log(2 pi).", "quantifier": "all data, means and positive-definite covariances", "why_tests_cant": "Tests compare code paths with each other, never with the density.", "anchors": ["jax_cosmo/likelihood.py: gaussian_log_likelihood"]}
{"id": "C65", "title": "Log-likelihood without determinant is minus half chi-squared", "statement": "With include_logdet=False the value is -1/2 (data-mu)^T C^-1 (data-mu): <= 0, zero exactly at data = mu, unchanged when data and mu are swapped, for positive-definite C.", "quantifier": "all data, means and positive-definite covariances", "why_tests_cant": "All sizes and matrices.", "anchors": ["jax_cosmo/likelihood.py: gaussian_log_likelihood"]}
{"id": "C66", "title": "The forecast pipeline is well posed end to end", "statement": "For any probes with positive galaxy density and a non-negative power spectrum, the sparse covariance produced by gaussian_cl_covariance_and_mean is positive definite, its sparse inverse and log-determinant are the true ones, and the likelihood at data = mean is finite and maximal in the data among include_logdet=False values.", "quantifier": "all probe lists, multipole grids, cosmologies with non-negative spectra", "why_tests_cant": "Composition of four modules over all sizes.", "anchors": ["jax_cosmo/angular_cl.py: gaussian_cl_covariance_and_mean", "jax_cosmo/likelihood.py: gaussian_log_likelihood", "jax_cosmo/sparse.py: inv, slogdet"]}
{"id": "C67", "title": "Transfer function depends only on physical densities and physical wavenumber", "statement": "Eisenstein_Hu is unchanged, for both types, when h is multiplied by c, Omega_b and Omega_c divided by c^2 and k (in h/Mpc) divided by c; it does not depend on curvature, dark energy, n_s or sigma8.", "quantifier": "all cosmologies, wavenumbers and factors c != 0", "why_tests_cant": "Every factor of h in a fitting formula of 40 terms has to be right at once; pointwise comparisons at one h cannot see a missing one.", "anchors": ["jax_cosmo/transfer.py: Eisenstein_Hu"]}
{"id": "C68", "title": "A systematic shift keeps the galaxy density and range of its parent", "statement": "systematic_shift(parent, bias) has the gals_per_arcmin2 and zmax of the parent distribution.", "quantifier": "all parent distributions and biases", "why_tests_cant": "All parents; the defaults happen to agree in the simplest fixtures.", "anchors": ["jax_cosmo/redshift.py: systematic_shift, redshift_distribution.__init__"]}
{"id": "C69", "title": "Every probe yields one kernel row and one noise level per tracer", "statement": "kernel and noise of a probe return exactly n_tracers entries, so that the tracers of the probes after it keep the numbers that the spectra ordering assumes.", "quantifier": "all probes, including per-bin lists of biases, shape noises and multiplicative biases", "why_tests_cant": "Broadcasting makes the row count depend on the lengths of the argument lists; tests use matching lengths.", "anchors": ["jax_cosmo/probes.py: weak_lensing_kernel, density_kernel, WeakLensing.noise, NumberCounts.kernel", "jax_cosmo/angular_cl.py: _get_cl_ordering, angular_cl, noise_cl"]}
{"id": "C70", "title": "The growth ODE is the linear growth equation", "statement": "The right-hand side integrated by _growth_factor_ODE equals D'' = -(3/a + dlnE/da) D' + 3/2 Omega_m/(a^5 E^2) D with E the model's expansion rate, in every universe with E^2 > 0; with a cosmological constant E itself and E * int da/(aE)^3 satisfy it.", "quantifier": "all cosmologies (curved, evolving dark energy), all a > 0 with E^2(a) > 0", "why_tests_cant": "Tests compare growth factors of one cosmology with another code to 1%; the equation has to hold for all densities, curvatures and w0, wa.", "anchors": ["jax_cosmo/background.py: _growth_factor_ODE, Esqr, Omega_m_a, Omega_de_a, w"]}
{"id": "C71", "title": "Distance integrand, redshift integral and number conservation agree", "statement": "dchioverda is c/(a^2 H) with the library's own c and H; the integral over a equals int c/H dz over redshift; the clustering kernel weighted with d chi counts b n(z) dz.", "quantifier": "all cosmologies with E^2 > 0, all scale factors, all redshift distributions", "why_tests_cant": "Consistency between modules using different variables (a, z, chi) for all inputs.", "anchors": ["jax_cosmo/background.py: dchioverda, H", "jax_cosmo/probes.py: density_kernel", "jax_cosmo/utils.py: a2z, z2a"]}
{"id": "C72", "title": "Faster expansion means smaller distances", "statement": "If E_p(a)^2 <= E_q(a)^2 for all 0 < a <= 1 then every radial comoving distance computed for q is at most the one for p; in particular more matter in flat LambdaCDM means smaller distances.", "quantifier": "all pairs of cosmologies so related, all redshifts up to 970", "why_tests_cant": "A relation between two infinite families of runs.", "anchors": ["jax_cosmo/background.py: radial_comoving_distance, Esqr"]}
{"id": "C73", "title": "Physical constants are consistent", "statement": "rh * H0 = c, and the steradian to square arcminute conversion is (180*60/pi)^2 to 1e-6.", "quantifier": "the constants of the package", "why_tests_cant": "A constant may be wrong in digits below the tolerance of every comparison.", "anchors": ["jax_cosmo/constants.py: rh, H0, c", "jax_cosmo/redshift.py: steradian_to_arcmin2, gals_per_steradian"]}
{"id": "C74", "title": "Structure never grows faster than in Einstein-de Sitter", "statement": "For cosmologies with matter, no negative density and -1 <= w <= 1, solved with the growth equation: growth_factor(a)/a does not increase on (0,1], growth_factor(a) >= a on [0,1], and 0 < growth_rate(a) <= 1 from z = 899 to today.", "quantifier": "all such cosmologies and scale factors, including curved ones and evolving dark energy", "why_tests_cant": "A bound on the RK4 solution for all parameter values, step after step; tests sample one cosmology.", "anchors": ["jax_cosmo/background.py: _growth_factor_ODE, _growth_rate_ODE, growth_factor, growth_rate", "jax_cosmo/scipy/ode.py: odeint", "jax_cosmo/scipy/interpolate.py: interp"]}
{"id": "C75", "title": "Halofit is the published fitting formula", "statement": "The non-linear spectrum is Delta^2_Q + Delta^2_H with the coefficients of Takahashi et al. 2012 (default) or Smith et al. 2003, as functions of the library's non-linear scale, effective index, curvature and density parameters at the epoch considered.", "quantifier": "all cosmologies, transfer functions, k > 0 and a, both prescriptions", "why_tests_cant": "A wrong digit or exponent in one of forty constants moves the result by less than the tolerance of the comparison with another code.", "anchors": ["jax_cosmo/power.py: halofit"]}
{"id": "C76", "title": "Effective index and curvature are logarithmic derivatives of the variance", "statement": "With sigma^2(R) the Gaussian-filtered variance computed by the library's quadrature, d sigma^2/d ln R at the non-linear scale is -(n_eff + 3) and the second derivative is (n_eff+3)^2 - C; so where sigma^2 = 1, n_eff = -3 - d ln sigma^2/d ln R and C = -d^2 ln sigma^2/d ln R^2.", "quantifier": "all cosmologies, transfer functions and epochs", "why_tests_cant": "An identity between an integral computed in closed form and the derivative of another integral.", "anchors": ["jax_cosmo/power.py: _halofit_parameters"]}
{"id": "C77", "title": "Non-linear corrections vanish on large scales", "statement": "For -3 < n_s < 2, a transfer function tending to a non-zero limit and 0 < Omega_m(a) <= 1, the ratio of the non-linear to the linear spectrum tends to 1 as k -> 0, for both prescriptions; in particular with both Eisenstein-Hu transfer functions.", "quantifier": "all such cosmologies, transfer functions and epochs; limit k -> 0", "why_tests_cant": "A limit; tests compare down to a fixed smallest k.", "anchors": ["jax_cosmo/power.py: halofit, linear_matter_power", "jax_cosmo/transfer.py: Eisenstein_Hu"]}
{"id": "C78", "title": "The non-linear scale is where the variance is one", "statement": "If the Gaussian-filtered variance computed by the library's quadrature is one at a radius within the search range, R_nl = 1/k_nl is within one cell of the search grid (a factor 10^(1/51)) of it.", "quantifier": "all cosmologies, positive power spectra and epochs with the root within the search range", "why_tests_cant": "The error of the interpolated root depends on the shape of the whole table.", "anchors": ["jax_cosmo/power.py: _halofit_parameters", "jax_cosmo/scipy/interpolate.py: interp"]}
{"id": "C79", "title": "Angular spectra scale with their amplitudes", "statement": "With the linear power spectrum every angular spectrum is proportional to sigma8^2; multiplying the kernels of tracers i and j by u and v multiplies C_ij by u v; a galaxy bias enters as b_i b_j and a multiplicative shear bias as (1+m_i)(1+m_j), whatever the other probes.", "quantifier": "all cosmologies, transfer functions, probe lists, multipoles and amplitudes", "why_tests_cant": "An exact relation between two runs for all amplitudes and probe mixtures; a test at one fiducial point cannot see an amplitude applied twice or to the wrong bin.", "anchors": ["jax_cosmo/angular_cl.py: angular_cl", "jax_cosmo/power.py: linear_matter_power", "jax_cosmo/probes.py: WeakLensing.kernel, NumberCounts.kernel, density_kernel", "jax_cosmo/bias.py: constant_linear_bias, inverse_growth_linear_bias"]}
{"id": "C80", "title": "Interpolated quantities vary continuously", "statement": "Linear interpolation is Lipschitz continuous in the query, with the steepest slope of the table; so the radial distance and the growth factor are continuous functions of the scale factor, and the scale factor a continuous function of distance.", "quantifier": "all tables with monotone abscissae and all queries; all cosmologies", "why_tests_cant": "Continuity; a jump narrower than the spacing of test points is invisible to tests, yet ruins gradients.", "anchors": ["jax_cosmo/scipy/interpolate.py: interp", "jax_cosmo/background.py: radial_comoving_distance, a_of_chi, growth_factor"]}
{"id": "C81", "title": "The non-linear scale depends continuously on sigma8", "statement": "The scale R_nl of halofit, hence the non-linear power spectrum, is a continuous function of sigma8.", "quantifier": "all cosmologies, positive spectra, epochs and amplitudes", "why_tests_cant": "The jumps happen at isolated amplitudes.", "anchors": ["jax_cosmo/power.py: _halofit_parameters", "jax_cosmo/scipy/interpolate.py: interp"]}
{"id": "C82", "title": "Differentiating the ODE solver solves the variational equation", "statement": "If the right-hand side is differentiable in the state and a parameter, the derivative of the solution returned by odeint with respect to the parameter is the solution odeint returns for the variational equation, at every node of the grid.", "quantifier": "all differentiable right-hand sides, initial conditions, grids and parameters", "why_tests_cant": "Finite differences of a run check one right-hand side at one parameter; this is the statement gradients of the library rely on.", "anchors": ["jax_cosmo/scipy/ode.py: odeint"]}
{"id": "C83", "title": "Distances respond to parameters as the quadrature of the response", "statement": "Along any differentiable curve of cosmologies, E^2 has the analytic derivative, and the derivative of the radial comoving distance is the library's own quadrature and interpolation of -R_H dE^2/(2 a^2 E^3); the distance to today does not respond.", "quantifier": "all differentiable curves of cosmologies (all eight parameters at once) with E^2 > 0, and all scale factors", "why_tests_cant": "Gradients are infinite-precision limits; the clip at zero distance could cut them off at points no test visits.", "anchors": ["jax_cosmo/background.py: Esqr, dchioverda, radial_comoving_distance", "jax_cosmo/scipy/ode.py: odeint", "jax_cosmo/scipy/interpolate.py: interp"]}
{"id": "C84", "title": "Growth factor and rate are differentiable in the parameters", "statement": "Along any differentiable curve of physical cosmologies the growth factor and growth rate are differentiable from z = 899 to today, in both growth modes; the derivative is given by the library's solution of the variational growth equation, or of the integral of d(Omega_m^gamma); the growth factor today stays one.", "quantifier": "all differentiable curves of physical cosmologies, 1/900 <= a <= 1", "why_tests_cant": "The clips to [0, 1] make the growth factor a max/min of smooth functions; showing that they are never active takes a bound over the whole domain.", "anchors": ["jax_cosmo/background.py: growth_factor, growth_rate, _growth_factor_ODE, _growth_rate_ODE, _growth_factor_gamma, _growth_rate_gamma"]}
{"id": "C85", "title": "Transfer function and linear power are differentiable in parameters and wavenumber", "statement": "Both Eisenstein-Hu transfer functions, sigma^2(R) and the linear power spectrum are differentiable jointly in all cosmological parameters and the wavenumber; the derivative of sigma^2 is the Romberg integral of the derivative of the integrand.", "quantifier": "all differentiable curves of baryonic (and, for the power spectrum, physical) cosmologies and k > 0", "why_tests_cant": "Forty nested powers, logarithms and quotients, any of which could have a kink or pole inside the domain.", "anchors": ["jax_cosmo/transfer.py: Eisenstein_Hu", "jax_cosmo/power.py: linear_matter_power, sigmasqr", "jax_cosmo/scipy/integrate.py: romb"]}
{"id": "C86", "title": "Angular spectra are differentiable in the parameters", "statement": "Along any differentiable curve of physical cosmologies every lensing and clustering kernel and every angular spectrum returned with linear power is differentiable in the cosmological, bias and alignment parameters, provided no sample of the line of sight lies exactly at the 1 Mpc/h floor of the distance; with the default integration range no sample ever does.", "quantifier": "all differentiable curves of physical cosmologies, all probe lists, multipoles and integration ranges with zmax >= 2", "why_tests_cant": "The floor max(chi, 1) has a kink; whether one of hundreds of quadrature samples meets it depends on every parameter.", "anchors": ["jax_cosmo/angular_cl.py: angular_cl", "jax_cosmo/probes.py: weak_lensing_kernel, density_kernel, nla_kernel"]}
{"id": "C87", "title": "Curvature gradient of the transverse distance", "statement": "The transverse comoving distance is differentiable in all parameters including through flatness, and differentiating the branch that lax.switch selects gives that derivative.", "quantifier": "all differentiable curves of physical cosmologies and all scale factors", "why_tests_cant": "At Omega_k = 0 the selected branch does not contain Omega_k, so the automatic gradient misses a term; agreement of values at every sampled Omega_k hides it.", "anchors": ["jax_cosmo/background.py: transverse_comoving_distance"]}
{"id": "C88", "title": "Score and Fisher matrix of the likelihood", "statement": "With a fixed covariance the log-likelihood is differentiable in the parameters with gradient (data - mu)^T C^-1 dmu; with data generated at the fiducial point the gradient vanishes there, no other parameters score higher, and the Hessian is minus the Fisher matrix dmu^T C^-1 dmu; this holds for the whole chain cosmology -> angular_cl -> likelihood.", "quantifier": "all twice differentiable means on normed spaces, all positive definite covariances, dense or sparse, both inversion methods; all curves of physical cosmologies with linear power", "why_tests_cant": "Fisher forecasts rest on the cancellation of second derivatives of the mean at the fiducial point, an identity over all parameter directions.", "anchors": ["jax_cosmo/likelihood.py: gaussian_log_likelihood", "jax_cosmo/angular_cl.py: angular_cl"]}
{"id": "C89", "title": "odeint converges at fourth order", "statement": "On a problem whose right-hand side is C^1 with Lipschitz derivative in the state and whose exact solution is five times continuously differentiable, odeint differs from the exact solution at every grid point by at most C (h^4 + initial error), h the largest step, with C independent of the grid; on n equal steps the error is at most C / n^4.", "quantifier": "all normed state spaces, smooth initial value problems, grids (not only uniform ones) and initial values", "why_tests_cant": "The order of a Runge-Kutta scheme is a statement about the limit of ever finer grids; a wrong stage weight still looks convergent at any one resolution.", "anchors": ["jax_cosmo/scipy/ode.py: odeint"]}
{"id": "C90", "title": "The growth table converges at fourth order", "statement": "The linear growth equation has exactly one solution D on [a0, 1] with D(a0) = a0, D'(a0) = 1 at the first node a0 = 10^log10_amin; it is positive and increasing; the growth factors tabulated with n steps differ from D(a)/D(1) by at most C / n^4, and the tabulated growth rates from a D'/D by at most C / n^4.", "quantifier": "all cosmologies with E^2 > 0 up to today and Omega_m >= 0 (any curvature, any w0 and wa), all table ranges, all sufficiently large n", "why_tests_cant": "Convergence to the true solution of a variable-coefficient equation is a limit over step numbers and a statement about every cosmology; there is no closed form to compare with.", "anchors": ["jax_cosmo/background.py: _growth_factor_ODE", "jax_cosmo/scipy/ode.py: odeint"]}
{"id": "C91", "title": "Distances and growth converge at every scale factor", "statement": "Computed with n steps, the radial comoving distance differs from the line-of-sight integral R_H int_a^1 dx / (x^2 E(x)) by at most C / n^2 at every a in [10^log10_amin, 1]; likewise the growth factor from D(a)/D(1), the growth rate from a D'/D, and in gamma mode the growth factor from exp(-int_a^1 Omega_m(x)^gamma dx/x).", "quantifier": "all cosmologies with E^2 > 0 up to today, all table ranges, all scale factors in the range of the table, all (sufficiently large) n", "why_tests_cant": "The error between the nodes is governed by interpolation, including a wrong chord in the first cell; only a bound over all a and n shows that the scheme still converges.", "anchors": ["jax_cosmo/background.py: radial_comoving_distance, _growth_factor_ODE, _growth_rate_ODE, _growth_factor_gamma", "jax_cosmo/scipy/interpolate.py: interp", "jax_cosmo/scipy/ode.py: odeint"]}
{"id": "C92", "title": "Shape of the Smail distribution", "statement": "Whatever was evaluated before, smail_nz(a, b, z0) has logarithmic slope a - b (z/z0)^b; for a, b, z0 > 0 it rises strictly up to z0 (a/b)^(1/b), falls strictly afterwards and tends to zero; relative abundances at two redshifts do not depend on the normalisation.", "quantifier": "all shape parameters, evaluation histories and positive redshifts", "why_tests_cant": "Normalisation tests pass for any positive function; shape is a statement about all redshifts.", "anchors": ["jax_cosmo/redshift.py: smail_nz.pz_fn, redshift_distribution.__call__"]}
{"id": "C93", "title": "Moments of the kernel density estimate", "statement": "Expectations under kde_nz are the weighted means over the catalogue of expectations under Gaussians of width bw centred at the catalogue redshifts; in particular the mean is the weighted mean of the catalogue and the second moment that of the catalogue plus bw^2.", "quantifier": "all catalogues, real weights, positive bandwidths and test functions integrable against the Gaussians", "why_tests_cant": "Moments are integrals over the whole line; a kernel with a wrong width or offset still looks like a smooth histogram.", "anchors": ["jax_cosmo/redshift.py: kde_nz.pz_fn, kde_nz._kernel"]}
{"id": "C94", "title": "Quadratures converge for every continuous integrand", "statement": "For every continuous integrand simps differs from the integral by at most (b - a) times the oscillation of the integrand over one panel, and romb by at most 2 (b - a) times its distance from the polynomials of degree 2 divmax + 1; hence both converge to the integral as the number of points or of doublings grows.", "quantifier": "all continuous integrands on all intervals a <= b, all even N, all divmax >= 1", "why_tests_cant": "Convergence is a limit over resolutions and the integrand ranges over an infinite-dimensional space; a negative weight in the extrapolation would break it only for rough integrands.", "anchors": ["jax_cosmo/scipy/integrate.py: simps, romb"]}
{"id": "C95", "title": "Redshift conversions in floating point", "statement": "In rounded arithmetic z2a still maps today to a = 1 exactly and z >= 0 monotonically into (0, 1], with relative error at most 3u; a2z(z2a(z)) differs from z by at most 7u(1 + z). The round trip is not exact: with p binary digits every redshift below 2^-p comes back as zero.", "quantifier": "all roundings with unit roundoff u <= 1/8 (in particular binary32 and binary64 without exponent limits), all z >= 0", "why_tests_cant": "Rounding depends on every bit of the input; 2^32 inputs in single precision, more in double.", "anchors": ["jax_cosmo/utils.py: z2a, a2z"]}
{"id": "C96", "title": "Simpson's rule in floating point", "statement": "Whatever the order of summation, the rounding error of simps is at most ((1+u)^(depth+7) - 1) times Simpson's sum of the absolute sample values; samples of one sign give a non-negative result with that relative error; the distance to the true integral is at most truncation error plus sample error plus rounding.", "quantifier": "all roundings, sample arrays, intervals, even N and all summation trees", "why_tests_cant": "XLA chooses the order of summation; there are exponentially many.", "anchors": ["jax_cosmo/scipy/integrate.py: simps"]}
{"id": "C97", "title": "The covariance is exactly symmetric in floating point", "statement": "The blocks of the Gaussian covariance computed in floating point satisfy block(I, J) = block(J, I) bit by bit, and every entry is within three roundings of the exact Wick product of the same spectra.", "quantifier": "all roundings, probe lists, spectra and mode counts", "why_tests_cant": "Exact symmetry depends on which spectrum index is the left operand in each of the n^4 products; Cholesky-type solvers and plots assume it.", "anchors": ["jax_cosmo/angular_cl.py: gaussian_cl_covariance, _get_cov_blocks_ordering"]}
{"id": "C98", "title": "odeint in floating point", "statement": "On a smooth initial value problem the states computed in floating point differ from the exact solution by at most C (h^4 + initial error + (n + 1) u + phi): truncation, one rounding per step, and the error phi of the computed right-hand side; C does not depend on arithmetic, grid or precision.", "quantifier": "all roundings, dimensions, smooth problems, computed right-hand sides within phi of the exact one, grids with n u <= 1", "why_tests_cant": "Accumulation of rounding errors over thousands of steps is bounded only by a stability argument over all grids.", "anchors": ["jax_cosmo/scipy/ode.py: odeint"]}
{"id": "C99", "title": "Growth factor is Heath's integral when dark energy is a cosmological constant", "statement": "With w0 = -1, wa = 0 and non-negative densities, the exact growth factor with the code's initial values D = a, D' = 1 at the first node b is E(a)[b/E(b) + (1 - b E'(b)/E(b)) b^3 E(b)^2 int_b^a dx/(xE)^3]. Normalised to today it differs from the textbook growing mode E(a) int_0^a dx/(xE)^3 by at most b s (13/10 + 2/5 s)/Omega_m with s = (Omega_k b + Omega_L b^3)/Omega_m, hence growth_factor is within C/n^2 plus that amount of Heath's formula.", "quantifier": "all cosmologies with w = -1, Omega_m > 0, Omega_k >= 0, Omega_de >= 0, all first nodes b in (0,1), all scale factors in [b,1], all sufficiently large table lengths", "why_tests_cant": "The library never evaluates the integral; agreement of a table from a Runge-Kutta solver with a closed form, and the size of the decaying mode excited by the start values, can be sampled but not bounded by tests.", "anchors": ["jax_cosmo/background.py: growth_factor, _growth_factor_ODE"]}
{"id": "C100", "title": "Information grows with sky coverage and shrinks with noise", "statement": "The covariance is inversely proportional to f_sky and the Fisher information proportional to it. If the noise of every multipole increases by a positive semi-definite amount (in particular if every tracer's noise level increases) the covariance increases in the Loewner order, and neither the Fisher information in any direction nor the chi-squared of any deviation increases.", "quantifier": "all probe lists, multipole grids, signal and noise arrays, pairs of non-zero sky fractions, all data vectors", "why_tests_cant": "An inequality between inverse matrices of arbitrary size; an error in one of the n^4 index pairings can break the ordering only for particular spectra.", "anchors": ["jax_cosmo/angular_cl.py: gaussian_cl_covariance, noise_cl", "jax_cosmo/likelihood.py: gaussian_log_likelihood"]}
{"id": "C101", "title": "Multipoles are independent data", "statement": "With a sparse positive definite covariance the log likelihood is the sum over multipoles of the log likelihoods of the spectra at that multipole, with or without determinant, and the Fisher information is the sum over multipoles.", "quantifier": "all numbers of spectra and multipoles, all positive definite sparse covariances, data and means", "why_tests_cant": "Ties together the flattening order of the mean, the block layout, the sparse inverse and the sparse determinant for all sizes.", "anchors": ["jax_cosmo/likelihood.py: gaussian_log_likelihood", "jax_cosmo/sparse.py: inv, det, dot"]}
{"id": "C102", "title": "Gaussian covariance is the covariance of estimated spectra", "statement": "Let the tracers at one multipole be measured by nu independent modes, each a centred Gaussian vector whose covariance is the observed spectrum (signal plus noise), with nu = (2l+1) Delta_l f_sky. The mean over modes of X_i X_j is an unbiased estimate of the spectrum, and the covariance of the estimates for pairs (ij) and (kl) is exactly the entry that gaussian_cl_covariance returns.", "quantifier": "all probe lists, signal and noise spectra, multipoles for which the number of modes is a positive integer, all probability spaces carrying such modes", "why_tests_cant": "The tests compare the covariance with itself (sparse against dense); no simulated fields are drawn, and sampling could only confirm the formula to its statistical error.", "anchors": ["jax_cosmo/angular_cl.py: gaussian_cl_covariance"]}
{"id": "C103", "title": "What the likelihood gives on average over data", "statement": "If data scatter as a Gaussian with the covariance that is passed to gaussian_log_likelihood, then the average of the value returned for a model mean mu is -(N + d^T C^-1 d)/2 with d the offset from the true mean; no model beats the truth on average and only models with the same mean equal it; chi^2 = -2 log L at the truth has variance 2N; and the score has mean zero and covariance equal to the Fisher matrix.", "quantifier": "all data lengths, positive definite covariances, means, both methods, all differentiable models of the mean, all probability spaces carrying such data", "why_tests_cant": "A test evaluates the likelihood on one data vector; a wrong factor or a missing inverse leaves every such value plausible, and averages over data can only be sampled.", "anchors": ["jax_cosmo/likelihood.py: gaussian_log_likelihood"]}
{"id": "C104", "title": "Transfer functions are the published Eisenstein & Hu formulae", "statement": "Eisenstein_Hu with type 'eisenhu_osc' returns formula (16) of Eisenstein & Hu (1998), and with type 'eisenhu' formula (29) with effective shape (30), written as in the paper in terms of Omega_0 h^2, Omega_b h^2, T_cmb/2.7K and the wavenumber k h in 1/Mpc. The code works in h/Mpc throughout; every length and wavenumber carries the right power of h.", "quantifier": "all cosmologies with h and Omega_m non-zero, all wavenumbers", "why_tests_cant": "The tests compare with another code at two cosmologies to a few per cent; a slipped digit in one of some forty constants or a lost factor h in a sub-dominant term stays below that.", "anchors": ["jax_cosmo/transfer.py: Eisenstein_Hu"]}
{"id": "C105", "title": "Shape of the linear power spectrum", "statement": "Both transfer functions fall as ln k / k^2 on small scales, with explicit amplitudes (baryons leave no trace in the oscillating one). The linear power spectrum therefore behaves as k^n_s for k -> 0 and as k^(n_s-4) ln^2 k for k -> infinity; for 0 < n_s < 4 it vanishes at both ends and has a wavenumber of maximal power.", "quantifier": "all cosmologies with baryons and dark matter (effective shape positive for type 'eisenhu'), all scale factors, all tilts", "why_tests_cant": "Limits cannot be tested; the tests stop at a few h/Mpc, where the logarithmic slope is still changing.", "anchors": ["jax_cosmo/transfer.py: Eisenstein_Hu", "jax_cosmo/power.py: linear_matter_power"]}
{"id": "C106", "title": "Intrinsic alignments follow the non-linear alignment model", "statement": "The alignment kernel is the galaxy density kernel of the same bins and bias, refusals included, times -C1 rho_crit Omega_m / D(z) with C1 rho_crit = 0.013875 and times the spin-2 factor. A shear bin with alignments and calibration bias is (lensing + alignment)(1+m). For positive amplitude the alignments lower the kernel of a bin exactly where it has galaxies.", "quantifier": "all cosmologies without gamma, all lists of bins, all bias arguments, redshifts and multipoles", "why_tests_cant": "The test compares one bin at one amplitude with another code; a sign, a power of D or an m applied to only one term would show as a few per cent at low redshift only.", "anchors": ["jax_cosmo/probes.py: nla_kernel", "jax_cosmo/probes.py: WeakLensing.kernel"]}
{"id": "C107", "title": "Lensing kernels in curved universes", "statement": "The lensing kernel of a plane of sources equals 3/2 Omega_m H0^2/c (1+z) f_K(chi) f_K(chi_s-chi)/f_K(chi_s) with the spin-2 factor, where f_K is the transverse distance at the curvature of the cosmology.", "quantifier": "all physical cosmologies, all source planes beyond 1/799 in redshift, all lens redshifts in front, all multipoles above 1", "why_tests_cant": "All tests of kernels run at Omega_k = 0, where the radial and transverse distances agree.", "anchors": ["jax_cosmo/probes.py: weak_lensing_kernel", "jax_cosmo/background.py: transverse_comoving_distance"]}
{"id": "C108", "title": "Merging galaxy samples averages kernels and spectra", "statement": "The normalised distribution of a sample made of several populations is the average of theirs, weighted with the number of objects in each; joining two catalogues of a kernel density estimate does the same. The lensing kernel (with or without alignments) and the clustering kernel of the merged bin are the weighted averages of the kernels, and every spectrum is the corresponding double sum over the spectra of the parts.", "quantifier": "any number of populations with extended distributions and common maximum redshift, any shares, all cosmologies without gamma, any other probes in either list, linear or non-linear power", "why_tests_cant": "Needs to relate two different survey set-ups; the tests compare one set-up with stored numbers.", "anchors": ["jax_cosmo/redshift.py: redshift_distribution.__call__", "jax_cosmo/redshift.py: kde_nz", "jax_cosmo/probes.py: weak_lensing_kernel", "jax_cosmo/probes.py: density_kernel", "jax_cosmo/probes.py: nla_kernel", "jax_cosmo/angular_cl.py: angular_cl"]}
{"id": "C109", "title": "No sources lens more than infinitely distant ones", "statement": "The lensing kernel of any normalised source distribution is at most 3/2 Omega_m H0^2/c (1+z) chi(z) times the spin-2 factor, the kernel of sources at infinity, because at most all sources lie behind the lens.", "quantifier": "all physical cosmologies, all source distributions, lens redshifts and multipoles above 1", "why_tests_cant": "The tests use broad Smail bins, for which both quadratures are accurate.", "anchors": ["jax_cosmo/probes.py: weak_lensing_kernel", "jax_cosmo/redshift.py: redshift_distribution.__call__"]}
{"id": "C110", "title": "The lensing kernel of a bin does not depend on the other bins", "statement": "Row i of the weak lensing kernel is determined by bin i alone.", "quantifier": "all physical cosmologies, all lists of bins", "why_tests_cant": "The tests give all bins of a probe the same zmax.", "anchors": ["jax_cosmo/probes.py: weak_lensing_kernel"]}
{"id": "C111", "title": "Background quantities are finite numbers", "statement": "No division by zero, logarithm or square root outside its domain, infinity or NaN occurs in the evaluation of the expansion rate, density fractions, distances, growth factor and growth rate: evaluated in arithmetic with the IEEE exceptional values every intermediate and final value is finite, and equal to the real-number value.", "quantifier": "all cosmologies with positive squared expansion rate between the big bang and today (growth: positive matter, non-negative curvature and dark energy densities, dark energy equation of state of C10), all scale factors", "why_tests_cant": "A NaN appears only for parameter values no test uses, and one bad entry of a table spoils every value read from it.", "anchors": ["jax_cosmo/background.py: Esqr, H, Omega_m_a, Omega_de_a, dchioverda, radial_comoving_distance, a_of_chi, transverse_comoving_distance, angular_diameter_distance, growth_factor, growth_rate", "jax_cosmo/scipy/ode.py: odeint", "jax_cosmo/scipy/interpolate.py: interp"]}
{"id": "C112", "title": "Transfer functions and linear power are finite numbers", "statement": "Evaluated in arithmetic with infinities and NaN, both Eisenstein & Hu transfer functions, the variance in spheres and the linear power spectrum never produce an exceptional value, and equal their real-number values.", "quantifier": "all cosmologies with baryons, dark matter and positive h, all positive wavenumbers (smooth form: Omega_b at most 6 Omega_c and Omega_m h^2 at most 10, from zero wavenumber on), all scale factors and non-zero radii", "why_tests_cant": "The failure sets (no baryons, extreme densities, zero wavenumber) are measure zero or outside the sampled range, and a NaN from a fit is normalised into every value.", "anchors": ["jax_cosmo/transfer.py: Eisenstein_Hu", "jax_cosmo/power.py: sigmasqr, linear_matter_power"]}
{"id": "C113", "title": "The oscillating transfer function is positive above the sound horizon", "statement": "The dark matter part of the oscillating transfer function is positive at every wavenumber; the baryon part and the total are positive for wavenumbers up to pi over the sound horizon, before the first zero of the acoustic oscillation. In the Planck15 cosmology this includes the lower end of the sigma8 integral, so the default power spectrum is normalisable.", "quantifier": "all cosmologies with baryons, dark matter and positive h, all wavenumbers with k s at most pi", "why_tests_cant": "Positivity of a product of six fitted factors over a parameter space; sampled values do not exclude a zero in the normalisation.", "anchors": ["jax_cosmo/transfer.py: Eisenstein_Hu", "jax_cosmo/power.py: sigmasqr"]}
{"id": "C114", "title": "The non-linear power spectrum is a finite number", "statement": "Evaluated in arithmetic with infinities and NaN, halofit with the default prescription is finite and equal to its real-number value: the table of variances has no repeated entries, no power has a negative base and no denominator vanishes. With the Smith et al. prescription the same holds when matter is not everything and the denominator of the quasi-linear term is non-zero.", "quantifier": "all physical cosmologies, all transfer functions finite at positive wavenumbers and non-zero at the first nodes of the integrals, all epochs with non-zero growth factor, all positive wavenumbers", "why_tests_cant": "Halofit inverts a computed table and raises fitted expressions to fitted powers; tests look at a few cosmologies.", "anchors": ["jax_cosmo/power.py: _halofit_parameters, halofit, nonlinear_matter_power"]}
{"id": "C115", "title": "Kernels and angular power spectra are finite numbers", "statement": "Evaluated in arithmetic with infinities and NaN, the redshift distributions, the biases, the lensing, alignment and density kernels and the complete Limber integration of angular_cl with the default non-linear power never produce an exceptional value: the call gives the spectra of the real-number model, or raises the same exception.", "quantifier": "all physical cosmologies without gamma, all lists of probes whose distributions can be normalised and reach at most redshift 899, all biases with pivot above redshift -1, all multipoles not negative and, for lensing probes, zero or at least one", "why_tests_cant": "A single NaN in one of 513 nodes of the line-of-sight integral, each of which runs 257-node integrals and table look-ups, spoils every spectrum; tests evaluate a few multipoles of a few surveys.", "anchors": ["jax_cosmo/redshift.py: smail_nz, kde_nz, systematic_shift, redshift_distribution.__call__", "jax_cosmo/bias.py", "jax_cosmo/probes.py: weak_lensing_kernel, density_kernel, nla_kernel, WeakLensing.kernel", "jax_cosmo/angular_cl.py: angular_cl", "jax_cosmo/scipy/integrate.py: simps"]}
{"id": "C116", "title": "Noise and covariance are finite numbers", "statement": "Evaluated in arithmetic with infinities and NaN, the noise spectra are finite when every sample has galaxies, the covariance is finite in both representations when every multipole has modes, and the full forecast gaussian_cl_covariance_and_mean is finite for increasing multipoles and a positive sky fraction.", "quantifier": "all surveys of C115 with non-zero galaxy densities, all increasing lists of multipoles, all positive sky fractions, sparse or dense", "why_tests_cant": "Degenerate inputs (empty sample, repeated multipole) give infinities in one representation and NaN in the other; tests only use regular grids.", "anchors": ["jax_cosmo/probes.py: WeakLensing.noise, NumberCounts.noise", "jax_cosmo/angular_cl.py: noise_cl, gaussian_cl_covariance, gaussian_cl_covariance_and_mean"]}
{"id": "C117", "title": "Antiderivatives of splines start at the first data point", "statement": "InterpolatedUnivariateSpline.antiderivative is the integral of the spline from the first data point, so that it is zero there, for every degree.", "quantifier": "all strictly increasing data, degrees 1, 2 and 3, both endpoint conditions, all evaluation points", "why_tests_cant": "The integration constant cancels in integral(a, b), which is what tests compare; only the bare antiderivative shows it.", "anchors": ["jax_cosmo/scipy/interpolate.py: InterpolatedUnivariateSpline.antiderivative"]}
{"id": "C118", "title": "The splines computed are the not-a-knot interpolating splines", "statement": "The cubic spline computed is the unique twice continuously differentiable function through the data that is a single cubic between neighbouring points and across the second and second-to-last points; the quadratic spline is the unique continuously differentiable function through the data that is a single quadratic between the midpoints of neighbouring points, the first and last midpoint excepted.", "quantifier": "all strictly increasing data of at least k+1 points, every function satisfying the textbook definition, all evaluation points in the data range", "why_tests_cant": "The definition of a spline quantifies over all functions; a comparison with SciPy on samples cannot show that the same function is computed, and two different endpoint conditions differ little on smooth data.", "anchors": ["jax_cosmo/scipy/interpolate.py: InterpolatedUnivariateSpline.__init__, __call__"]}
{"id": "C119", "title": "Splines are linear in the data and indifferent to units and direction", "statement": "The spline of a linear combination of data sets is that combination of the splines; stretching and shifting the abscissa of data and evaluation point changes nothing; listing the data in the opposite direction mirrors the not-a-knot splines.", "quantifier": "all strictly increasing data, all degrees and endpoint conditions (mirror: not-a-knot), all coefficients, all positive stretch factors and shifts, all evaluation points (mirror: data range)", "why_tests_cant": "Relations between outputs for different inputs; tests compare single outputs with SciPy.", "anchors": ["jax_cosmo/scipy/interpolate.py: InterpolatedUnivariateSpline.__init__, __call__"]}
{"id": "C120", "title": "Derivatives of background quantities computed by JAX are exact", "statement": "Forward-mode differentiation of the code (jax.jvp, jax.jacfwd) returns finite tangents equal to the true derivatives of the values returned: expansion rate and density parameters with respect to all parameters and the scale factor; comoving distance, growth factor and growth rate with respect to all parameters; comoving distance with respect to the scale factor away from the table points.", "quantifier": "all differentiable curves of cosmologies with positive E^2 (growth: physical ones), all directions, all scale factors (growth: 1/900 <= a <= 1), with and without gamma", "why_tests_cant": "Differentiation runs through ODE loops, table lookups, clips and power laws with their own rules; a NaN or half-counted tangent appears only at particular inputs (clips met with equality, zero bases), which finite-difference spot checks miss.", "anchors": ["jax_cosmo/background.py: Esqr, H, Omega_m_a, Omega_de_a, radial_comoving_distance, growth_factor, growth_rate", "jax_cosmo/scipy/ode.py: odeint", "jax_cosmo/scipy/interpolate.py: interp"]}
{"id": "C121", "title": "Derivatives of transfer functions and linear power spectra computed by JAX are exact", "statement": "Forward-mode differentiation of both Eisenstein-Hu transfer functions, of sigmasqr (Romberg) and of the normalised linear matter power spectrum returns finite tangents equal to the true derivatives of the values returned, with respect to every cosmological parameter and to wavenumber or radius.", "quantifier": "all differentiable curves of cosmologies with baryons and dark matter, all directions, all positive wavenumbers; sigmasqr and the spectrum for every transfer function that is itself differentiated correctly; 1/900 <= a <= 1", "why_tests_cant": "About forty power laws, logarithms and square roots are chained and then summed over 129 nodes of a Romberg tableau; a 0*inf tangent or a missed dependence would appear only at special parameter values.", "anchors": ["jax_cosmo/transfer.py: Eisenstein_Hu", "jax_cosmo/power.py: primordial_matter_power, sigmasqr, linear_matter_power", "jax_cosmo/scipy/integrate.py: romb"]}
{"id": "C122", "title": "Derivatives of halofit computed by JAX are exact", "statement": "Forward-mode differentiation of the non-linear scale, effective index, curvature and of the halofit power spectrum returns the true derivative of the value returned.", "quantifier": "all differentiable curves of cosmologies, all directions, both prescriptions", "why_tests_cant": "The non-linear scale comes from a table lookup with the table itself depending on the parameters; a derivative that is finite but meaningless at a jump cannot be recognised by checking for NaN.", "anchors": ["jax_cosmo/power.py: _halofit_parameters, halofit", "jax_cosmo/scipy/interpolate.py: interp"]}
{"id": "C123", "title": "Derivatives of redshift distributions computed by JAX are exact", "statement": "Forward-mode differentiation of a normalised redshift distribution n(z) (Smail, kernel density estimate, mean shift of a distribution) with respect to any of its parameters returns a finite tangent equal to the true derivative of the value returned, at every redshift including z=0 and including the normalisation.", "quantifier": "all parameter values for which the distribution is defined, all directions in parameter space, all redshifts", "why_tests_cant": "The normalisation integral evaluates the unnormalised density at z=0, where a power law with exponent below one has an infinite slope; whether 0*inf arises depends on the parameter that is differentiated and on the exponent, so gradient checks at one fiducial distribution with b>1 pass.", "anchors": ["jax_cosmo/redshift.py: redshift_distribution.__call__, smail_nz.pz_fn, kde_nz.pz_fn, systematic_shift.pz_fn", "jax_cosmo/scipy/integrate.py: simps"]}
{"id": "C124", "title": "Derivatives of tracer kernels computed by JAX are exact", "statement": "Forward-mode differentiation of the kernel of a weak-lensing or clustering probe, with respect to every cosmological parameter and every parameter of the probe (distributions, biases, calibration, intrinsic alignment), returns the true derivative of every row, at every redshift and multipole, and raises exactly when the undifferentiated call raises.", "quantifier": "all physical cosmologies and directions, all probes made of Smail, kernel-density, shifted-Smail bins and source planes, z=0 or 1/799<=z<=899, ell=0 or ell>=1", "why_tests_cant": "The kernel clips distances at 1 Mpc/h and clips the lensing efficiency at zero exactly at the first node of its own quadrature; the reverse permutation of bins, the normalisation and the error branches all have to commute with differentiation. Finite-difference tests cover one survey.", "anchors": ["jax_cosmo/probes.py: weak_lensing_kernel, density_kernel, nla_kernel, WeakLensing.kernel, NumberCounts.kernel", "jax_cosmo/bias.py: all __call__", "jax_cosmo/background.py: radial_comoving_distance, growth_factor"]}
{"id": "C125", "title": "Derivatives of angular power spectra and noise computed by JAX are exact", "statement": "Forward-mode differentiation of angular_cl and noise_cl with respect to every cosmological parameter and every parameter of every probe returns the true derivative of every entry, and raises exactly when the undifferentiated call raises.", "quantifier": "all physical cosmologies and directions, all lists of such probes with maximal redshift between 2 and 899, all multipole lists (ell=0 or ell>=1), Eisenstein-Hu or any other exactly differentiated transfer function", "why_tests_cant": "This is the end-to-end gradient the library exists for; a wrong tangent anywhere in distances, growth, power, kernels, Limber integral or ordering would show as a slightly wrong Fisher matrix, and tests compare gradients with finite differences at one survey and loose tolerances.", "anchors": ["jax_cosmo/angular_cl.py: angular_cl, noise_cl, _get_cl_ordering", "jax_cosmo/power.py: linear, halofit", "jax_cosmo/probes.py: kernel, noise", "jax_cosmo/scipy/integrate.py: simps"]}
{"id": "C126", "title": "The gradient of the likelihood vanishes on average at the true parameters when the covariance depends on them", "statement": "When both the mean and the covariance move with a parameter, the gradient of gaussian_log_likelihood is the derivative of the Gaussian log density; hence it averages to zero over data drawn at the true parameter value, and the value is bounded above in the amplitude of the covariance.", "quantifier": "all differentiable families of means and symmetric positive definite covariances of any size, all data, both settings of include_logdet and both inverse methods", "why_tests_cant": "The documented use is to differentiate this function with the covariance computed from the same cosmology; every test holds the covariance fixed, where the wrong sign of the determinant drops out of the gradient.", "anchors": ["jax_cosmo/likelihood.py: gaussian_log_likelihood", "jax_cosmo/sparse.py: slogdet", "jax_cosmo/angular_cl.py: gaussian_cl_covariance_and_mean"]}
{"id": "C127", "title": "Differentiating the Gaussian covariance gives the derivative of every entry", "statement": "For a cosmology and probes all of whose numbers depend on a parameter, the tangents that forward-mode differentiation returns for gaussian_cl_covariance and gaussian_cl_covariance_and_mean, dense or sparse, are the derivatives of the entries; an argument is refused exactly when the undifferentiated call refuses it.", "quantifier": "all directions of the cosmological parameters and of the leaves of the probes, all surveys with good bins, increasing multipoles at least one (or zero), positive sky fraction, both representations", "why_tests_cant": "A finite-difference test checks a few entries of one survey to a few digits; a factor lost only in the tangent of an off-diagonal pair passes it.", "anchors": ["jax_cosmo/angular_cl.py: gaussian_cl_covariance", "jax_cosmo/angular_cl.py: gaussian_cl_covariance_and_mean", "jax_cosmo/sparse.py: to_dense"]}
{"id": "C128", "title": "Differentiating the likelihood gives its gradient in both representations and with both methods", "statement": "With data, mean and covariance all carrying tangents, the tangent of gaussian_log_likelihood is the derivative of its value along any curve of arguments with those tangents, for the dense inverse, the dense cholesky and the sparse method.", "quantifier": "all sizes, all differentiable data, means and covariances invertible at the point (symmetric positive definite for cholesky, all trailing blocks invertible for the sparse recursion), both settings of include_logdet", "why_tests_cant": "The derivative rule of the cholesky factorisation works on the symmetrised tangent while the value reads only the lower triangle; tests differentiate along symmetric covariances only.", "anchors": ["jax_cosmo/likelihood.py: gaussian_log_likelihood", "jax_cosmo/sparse.py: inv", "jax_cosmo/sparse.py: slogdet", "jax_cosmo/sparse.py: vdot", "jax_cosmo/sparse.py: dot"]}
{"id": "C129", "title": "The gradient of the log likelihood of a survey with respect to all parameters is exact", "statement": "From cosmology and probe parameters through distances, growth, power spectrum, kernels, Limber integral, noise and covariance to the likelihood: the tangent returned is the derivative of the value returned.", "quantifier": "all physical cosmologies and directions, all surveys of good bins with positive noise, all data, dense and sparse covariance, both methods, both settings of include_logdet", "why_tests_cant": "The library exists for this composition; tests compare with finite differences at one cosmology.", "anchors": ["jax_cosmo/likelihood.py: gaussian_log_likelihood", "jax_cosmo/angular_cl.py: gaussian_cl_covariance_and_mean", "jax_cosmo/probes.py: weak_lensing_kernel", "jax_cosmo/probes.py: density_kernel", "jax_cosmo/power.py: nonlinear_matter_power", "jax_cosmo/background.py: growth_factor"]}
{"id": "C130", "title": "Minus the Hessian of the likelihood is the Fisher matrix", "statement": "The README recipe F = -hessian(likelihood): for a mean and a covariance depending on the parameters, minus the second derivative of gaussian_log_likelihood, averaged over data drawn at the fiducial point, is the Fisher information mu'^T C^-1 mu' + 1/2 tr(C^-1 C' C^-1 C').", "quantifier": "all twice differentiable families of means and symmetric positive definite covariances of any size, both settings of include_logdet, both inverse methods, data averaged over or equal to the model mean", "why_tests_cant": "The notebook evaluates this matrix at one cosmology and plots it; neither it nor a test has an independent value, and a negative eigenvalue would only be noticed in an unusual direction.", "anchors": ["jax_cosmo/likelihood.py: gaussian_log_likelihood", "jax_cosmo/sparse.py: slogdet", "jax_cosmo/angular_cl.py: gaussian_cl_covariance_and_mean"]}
{"id": "C131", "title": "Table interpolation in floating point", "statement": "With every operation of interp rounded, on an increasing table whose nodes are more than 8u times the current gap apart, the segment containing the query point is still the one used and the result differs from the piecewise-linear interpolant by at most ((1+u)^7 - 1)(|m||x| + |m| max|x_j| + max|f_j|), m the slope; errors of the table pass through without amplification. Relative accuracy does not hold, and closer nodes break the segment selection.", "quantifier": "all roundings with relative error u <= 1/8, all tables, all query points past the first segment", "why_tests_cant": "Tests compare interpolated values with looser tolerances at a few points away from zeros of the table; the ordering of rounded squared distances is never exercised near ties.", "anchors": ["jax_cosmo/scipy/interpolate.py: interp"]}
{"id": "C132", "title": "Constructing a cosmology by name, by position and from Planck defaults", "statement": "Cosmology(...) binds its nine parameters in the documented order, by position or by name, and refuses unknown, repeated or missing ones; Planck15(**kw) has the values given in kw and the published values for all others, no gamma unless given, refuses unknown keywords and any positional argument.", "quantifier": "all argument lists and all keyword dictionaries", "why_tests_cant": "Tests build Planck15() and one or two cosmologies by keyword; a swapped or ignored keyword among the nine would change results only within test tolerances or not at all.", "anchors": ["jax_cosmo/core.py: Cosmology.__init__", "jax_cosmo/parameters.py: Planck15"]}
{"id": "C133", "title": "The printed form of an object identifies it", "statement": "str/repr of a cosmology shows every parameter, so two cosmologies printing alike are equal; likewise repr of containers.", "quantifier": "all cosmologies and containers, any printer of numbers that prints distinct floats differently and on one line", "why_tests_cant": "No test prints an object.", "anchors": ["jax_cosmo/core.py: Cosmology.__str__", "jax_cosmo/jax_utils.py: container.__repr__"]}
{"id": "C134", "title": "Angular spectra are Limber projections along the line of sight", "statement": "angular_cl returns, for every pair of tracers, 1/c^2 times the integral over comoving distance of W1 W2 P(l+1/2 over D)/D^2, with D the transverse distance of the universe considered.", "quantifier": "all physical cosmologies, tracers, nonlinear functions and multipoles; error stated through the modulus of continuity of the integrand", "why_tests_cant": "Tests compare with CCL at one flat cosmology to a percent; the change of variable from distance to scale factor, the truncation at zmax and curvature are never isolated.", "anchors": ["jax_cosmo/angular_cl.py: angular_cl", "jax_cosmo/background.py: dchioverda"]}
{"id": "C135", "title": "Constructing redshift distributions, biases and probes", "statement": "Constructors store what is passed where the methods read it: density, range, galaxy density, bias values, noise and number of tracers of an object built by position or keyword are the documented ones, omitted keywords take the documented defaults (1 galaxy per arcmin^2, zmax 10, no alignments, m = 0, sigma_e = 0.26), and unknown keywords or wrong numbers of parameters are refused.", "quantifier": "all argument lists, keyword dictionaries and distributions", "why_tests_cant": "Tests build a handful of objects with all keywords spelt right; an ignored keyword yields plausible noise levels rather than an error.", "anchors": ["jax_cosmo/redshift.py: redshift_distribution.__init__", "jax_cosmo/probes.py: WeakLensing.__init__", "jax_cosmo/probes.py: NumberCounts.__init__", "jax_cosmo/jax_utils.py: container.__init__"]}
{"id": "C136", "title": "Using a cosmology inside transformed functions leaves it usable", "statement": "Background calls made inside jit, grad, jvp or vmap, nested in any way, with the cosmology as a closed-over object or as an argument, return what they return outside, and do not change what later calls on the same object return; likewise evaluations of a redshift distribution.", "quantifier": "all cosmologies without gamma, all programs of nested transformations and calls", "why_tests_cant": "Tests transform functions that build their own cosmology; the hazard needs one object used in a compiled function and again afterwards.", "anchors": ["jax_cosmo/background.py: radial_comoving_distance", "jax_cosmo/background.py: _growth_factor_ODE", "jax_cosmo/redshift.py: redshift_distribution.__call__", "jax_cosmo/core.py: tree_unflatten"]}
{"id": "C137", "title": "Romberg's error estimate", "statement": "With return_error=True the second value of romb is the distance of the last two diagonal entries of the Romberg tableau; it vanishes on polynomials the previous order integrates exactly, tends to zero for continuous integrands, and bounds the error of the first value.", "quantifier": "all integrands, limits and orders", "why_tests_cant": "No caller in the library asks for the estimate, so nothing exercises it.", "anchors": ["jax_cosmo/scipy/integrate.py: romb"]}
{"id": "C138", "title": "Power spectra over arrays are elementwise", "statement": "Called with arrays, linear_matter_power and halofit return the array of the values the functions have at the corresponding wavenumbers and scale factors, with NumPy's rules for broadcasting and with axes of length one dropped; lengths that do not broadcast are refused.", "quantifier": "all cosmologies, transfer functions, wavenumbers, scale factors, shapes and both prescriptions", "why_tests_cant": "The tests call the spectra with a vector of wavenumbers at one scale factor only.", "anchors": ["jax_cosmo/power.py: linear_matter_power", "jax_cosmo/power.py: halofit", "jax_cosmo/power.py: _halofit_parameters", "jax_cosmo/scipy/interpolate.py: interp", "jax_cosmo/background.py: growth_factor"]}
{"id": "C139", "title": "Angular spectra over arrays agree with one redshift and multipole at a time", "statement": "Kernels of probes called with an array of redshifts, and angular_cl called with an array of multipoles, return the arrays whose entries are the kernels and spectra at the single redshifts and multipoles: bins or pairs of tracers along the first axis, redshifts or multipoles along the second. They raise an exception for an array exactly if they raise the same one at every entry. A multipole that is not in an array is refused.", "quantifier": "all cosmologies, redshift distributions, biases, probes, arrays of redshifts, non-empty arrays of multipoles, and power spectra that act elementwise on the nodes (halofit and linear do)", "why_tests_cant": "The tests compare spectra of a few fixed probes with another code; a transposition or broadcasting slip that needs several bins, planes between extended bins, or lists of biases stays invisible.", "anchors": ["jax_cosmo/angular_cl.py: angular_cl", "jax_cosmo/probes.py: weak_lensing_kernel", "jax_cosmo/probes.py: density_kernel", "jax_cosmo/probes.py: nla_kernel", "jax_cosmo/probes.py: WeakLensing.kernel", "jax_cosmo/probes.py: NumberCounts.kernel", "jax_cosmo/redshift.py: redshift_distribution.__call__", "jax_cosmo/bias.py: inverse_growth_linear_bias.__call__", "jax_cosmo/scipy/integrate.py: simps"]}
{"id": "C140", "title": "Background functions over arrays are elementwise", "statement": "Every function of background.py called with an array returns an array of the same shape holding the values at its entries.", "quantifier": "all cosmologies and all arrays, of any number of axes", "why_tests_cant": "The tests call the background functions with 1-d arrays; how a table lookup behaves on slices of other shapes is never exercised, and for some shapes the result has the right shape but wrong values.", "anchors": ["jax_cosmo/background.py: w", "jax_cosmo/background.py: f_de", "jax_cosmo/background.py: Esqr", "jax_cosmo/background.py: H", "jax_cosmo/background.py: Omega_m_a", "jax_cosmo/background.py: Omega_de_a", "jax_cosmo/background.py: dchioverda", "jax_cosmo/background.py: radial_comoving_distance", "jax_cosmo/background.py: a_of_chi", "jax_cosmo/background.py: transverse_comoving_distance", "jax_cosmo/background.py: angular_diameter_distance", "jax_cosmo/background.py: growth_factor", "jax_cosmo/background.py: growth_rate", "jax_cosmo/scipy/interpolate.py: interp"]}
{"id": "C141", "title": "The log likelihood is a number for positive definite covariances", "statement": "For finite data and mean and a positive definite covariance, gaussian_log_likelihood returns a finite number, the same in the dense and in the sparse representation and with both inversion methods.  This applies to the mean and covariance of every regular survey.", "quantifier": "all data, means and matrices of any size, every inversion method, with and without the determinant, and every matrix routine meeting the assumptions", "why_tests_cant": "NaN and infinity appear only for special matrices, which random test matrices never are; the tests use one covariance per method.", "anchors": ["jax_cosmo/likelihood.py: gaussian_log_likelihood", "jax_cosmo/sparse.py: inv", "jax_cosmo/sparse.py: slogdet", "jax_cosmo/sparse.py: _block_det", "jax_cosmo/sparse.py: sparse_dot_sparse", "jax_cosmo/sparse.py: sparse_dot_vec"]}
{"id": "C142", "title": "The sparse determinant is exact or NaN", "statement": "sparse.det returns the determinant of the dense matrix, zero included, when every proper trailing block matrix is invertible, and NaN otherwise; sparse.slogdet returns a NaN logarithm in exactly the second case.", "quantifier": "all square sparse matrices with at least one block, and every matrix routine meeting the assumptions", "why_tests_cant": "Tests with random matrices never meet a singular trailing block, and the documented behaviour on the zero matrix depends on the number of blocks.", "anchors": ["jax_cosmo/sparse.py: det", "jax_cosmo/sparse.py: slogdet", "jax_cosmo/sparse.py: _block_det", "jax_cosmo/sparse.py: inv"]}
{"id": "C143", "title": "A tracer depends only on its own redshift bin", "statement": "The kernel and the noise of a redshift bin depend only on that bin, its own bias, alignment, multiplicative bias and shape noise: two probes of the same kind that share a bin agree on it, whatever their other bins.", "quantifier": "all cosmologies, redshifts, multipoles, probes of either kind with any numbers of bins and any mixture of shared and per-bin options", "why_tests_cant": "Tests build one probe and never compare a bin on its own with the same bin among others; all bins in the tests have the same zmax.", "anchors": ["jax_cosmo/probes.py: weak_lensing_kernel", "jax_cosmo/probes.py: density_kernel", "jax_cosmo/probes.py: nla_kernel", "jax_cosmo/probes.py: WeakLensing.kernel", "jax_cosmo/probes.py: WeakLensing.noise", "jax_cosmo/probes.py: NumberCounts.kernel", "jax_cosmo/probes.py: NumberCounts.noise", "jax_cosmo/redshift.py: redshift_distribution.__call__"]}
{"id": "C144", "title": "Reorganising a survey renumbers its data", "statement": "If two lists of probes contain the same tracers - in another order, distributed over other probes, or with some left out - and reach the same redshift, the data vector and covariance of one are those of the other with rows renumbered (and left out), and if nothing is left out the log likelihood of any data is the same.", "quantifier": "all cosmologies, multipole lists of length at least 2, power spectra, sky fractions and pairs of surveys related by a selection of tracers", "why_tests_cant": "Permuting or splitting probes changes every index of the covariance at once; tests check one arrangement.", "anchors": ["jax_cosmo/angular_cl.py: angular_cl", "jax_cosmo/angular_cl.py: noise_cl", "jax_cosmo/angular_cl.py: gaussian_cl_covariance", "jax_cosmo/angular_cl.py: gaussian_cl_covariance_and_mean", "jax_cosmo/angular_cl.py: _get_cl_ordering", "jax_cosmo/angular_cl.py: _get_cov_blocks_ordering", "jax_cosmo/likelihood.py: gaussian_log_likelihood"]}
{"id": "C145", "title": "More tracers never mean less information", "statement": "The Fisher information about any parameter, and the chi squared of any deviation, computed from the covariance of a survey are at least those computed from any selection of its tracers.", "quantifier": "all surveys with positive definite covariance and all selections of their tracers reaching the same redshift", "why_tests_cant": "An inequality between matrices of different sizes, for all surveys.", "anchors": ["jax_cosmo/angular_cl.py: gaussian_cl_covariance", "jax_cosmo/angular_cl.py: gaussian_cl_covariance_and_mean", "jax_cosmo/likelihood.py: gaussian_log_likelihood"]}
{"id": "C146", "title": "Linear spectra do not separate the amplitude of matter from the response of the tracers", "statement": "With the linear power spectrum, multiplying sigma8 by s and all galaxy biases and shear responses (1 + m) by 1/s changes neither the data vector nor its covariance, so the Fisher matrix of the two amplitudes is singular for every covariance; with lensing spectra of known calibration added to galaxy spectra it is regular.", "quantifier": "all cosmologies, transfer functions, multipole lists, lists of probes and positive definite covariances", "why_tests_cant": "An exact degeneracy is a statement about a whole curve of inputs; a regular Fisher matrix for every survey cannot be sampled.", "anchors": ["jax_cosmo/angular_cl.py: angular_cl", "jax_cosmo/angular_cl.py: noise_cl", "jax_cosmo/angular_cl.py: gaussian_cl_covariance_and_mean", "jax_cosmo/power.py: linear_matter_power", "jax_cosmo/probes.py: density_kernel", "jax_cosmo/probes.py: weak_lensing_kernel", "jax_cosmo/probes.py: WeakLensing.kernel", "jax_cosmo/probes.py: NumberCounts.kernel", "jax_cosmo/bias.py: constant_linear_bias", "jax_cosmo/bias.py: inverse_growth_linear_bias"]}
{"id": "C147", "title": "Hubble's law at small redshift", "statement": "As the redshift tends to zero the ratio of comoving distance and redshift tends to the Hubble radius c/H0.", "quantifier": "all physical cosmologies (matter, curvature, dark energy that is neither phantom nor stiffer than radiation), all table settings", "why_tests_cant": "Tests compare distances at a few scale factors with absolute tolerances; a relative error confined to the last cell of the table is below them.", "anchors": ["jax_cosmo/background.py: radial_comoving_distance", "jax_cosmo/background.py: dchioverda", "jax_cosmo/scipy/interpolate.py: interp", "jax_cosmo/scipy/ode.py: odeint", "jax_cosmo/utils.py: z2a"]}
{"id": "C148", "title": "Accuracy of the tabulated distance with constants", "statement": "In every universe with positive densities and -1 <= w <= 1/3, and at every scale factor from the second point of the default table until today, the computed radial comoving distance differs from the line-of-sight integral by at most 1.7e-4 of that integral plus 4e-4 of the local comoving Hubble radius c/(a H). For other table settings the two coefficients are explicit functions of the step in ln a.", "quantifier": "all cosmologies with positive densities and dark energy between a cosmological constant and radiation, all scale factors above the first cell, all table settings", "why_tests_cant": "Tests compare a handful of cosmologies and scale factors with another code whose own error is not known; they give no bound for other parameters.", "anchors": ["jax_cosmo/background.py: radial_comoving_distance", "jax_cosmo/background.py: dchioverda", "jax_cosmo/background.py: Esqr", "jax_cosmo/background.py: f_de", "jax_cosmo/scipy/interpolate.py: interp", "jax_cosmo/scipy/ode.py: odeint"]}
{"id": "C149", "title": "Which parameters each quantity depends on", "statement": "The expansion rate, all distances, growth factor and rate, and all tracer kernels are the same for two cosmologies with the same total matter density, curvature, equation of state and growth index, whatever their Hubble constant, baryon share, spectral index and amplitude. With the same spectral index and amplitude as well, the linear and non-linear power spectra and all angular spectra are the same for transfer functions that agree up to a constant factor.", "quantifier": "all pairs of cosmologies, all arguments, all probes, all transfer functions", "why_tests_cant": "Independence of a parameter is a statement about pairs of runs over all values of that parameter; tests vary at most a few values and compare within a tolerance.", "anchors": ["jax_cosmo/background.py: radial_comoving_distance", "jax_cosmo/background.py: growth_factor", "jax_cosmo/background.py: growth_rate", "jax_cosmo/background.py: Esqr", "jax_cosmo/probes.py: weak_lensing_kernel", "jax_cosmo/probes.py: density_kernel", "jax_cosmo/probes.py: nla_kernel", "jax_cosmo/power.py: linear_matter_power", "jax_cosmo/power.py: halofit", "jax_cosmo/angular_cl.py: angular_cl", "jax_cosmo/core.py: Cosmology.Omega_m"]}
{"id": "C150", "title": "Fitting a linear model with the likelihood gives the best estimate with Fisher errors", "statement": "When the mean is linear in the parameters and no direction of the parameters leaves it unchanged, the log likelihood is an exact parabola whose curvature is the Fisher matrix; it has one maximum. On data with Gaussian noise of the given covariance, the parameters at that maximum are on average the true ones, the covariance of their errors is the inverse of the Fisher matrix, and no unbiased linear estimator has a smaller variance.", "quantifier": "all data, all linear models with independent columns, all positive definite dense or sparse covariances, both inversion methods, with or without the determinant, all true parameters", "why_tests_cant": "The claim is about the maximum over all parameters, averages over all noise realisations, and a comparison with all other estimators.", "anchors": ["jax_cosmo/likelihood.py: gaussian_log_likelihood"]}
{"id": "C151", "title": "Spectra next to probes that reach further", "statement": "The spectrum of two tracers computed within a longer list of probes is the one computed from their probes alone, also when other probes in the list reach a larger redshift.", "quantifier": "all lists of probes, all cosmologies, all power spectra, all multipoles", "why_tests_cant": "Existing tests compute spectra of probes with the same maximum redshift. The claim compares runs with arbitrary other probes.", "anchors": ["jax_cosmo/angular_cl.py: angular_cl", "jax_cosmo/probes.py: density_kernel", "jax_cosmo/probes.py: WeakLensing.zmax", "jax_cosmo/probes.py: NumberCounts.zmax", "jax_cosmo/redshift.py: redshift_distribution.__call__"]}
{"id": "C152", "title": "Recombining the data does not change the comparison of models", "statement": "When the data vector is replaced by invertible linear combinations of it (other units, differences of bins, another zero point) and means and covariances are transformed along, the log likelihood without determinant is the same, with determinant it changes by the same amount for all models; ratios of likelihoods and Fisher matrices do not change.", "quantifier": "all data, means, positive definite covariances, invertible matrices, both inversion methods, dense and sparse", "why_tests_cant": "The claim compares two runs related by an arbitrary invertible matrix.", "anchors": ["jax_cosmo/likelihood.py: gaussian_log_likelihood"]}
{"id": "C153", "title": "Redshift distributions integrate to one", "statement": "The integral (not the library's quadrature) of the normalised n(z) over [0, zmax] is one to within a small error, for every smooth distribution and every catalogue with galaxies inside the range.", "quantifier": "all continuous distributions; all catalogues, weights, bandwidths and ranges of kernel density estimates", "why_tests_cant": "The error depends on where galaxies sit relative to a hidden grid; a test on one catalogue with a wide bandwidth shows nothing.", "anchors": ["jax_cosmo/redshift.py: redshift_distribution.__call__", "jax_cosmo/redshift.py: kde_nz.pz_fn", "jax_cosmo/redshift.py: kde_nz._kernel"]}
{"id": "C154", "title": "Distances to sources older than the start of the table", "statement": "The comoving distance is right to one per cent for every scale factor between the big bang and today, also before 10^-3 where the default table starts.", "quantifier": "all universes with -1 <= w <= 1/3, positive matter and non-negative curvature and dark energy densities; all scale factors", "why_tests_cant": "Tests compare distances inside the table; outside it the values come from extrapolating a chord.", "anchors": ["jax_cosmo/background.py: radial_comoving_distance", "jax_cosmo/scipy/interpolate.py: interp"]}
{"id": "C155", "title": "Bands of multipoles count every mode once", "statement": "The weights of the covariance belong to bands that tile the range of multipoles, and each weight is f_sky times the number of spherical harmonics in its band, so that binning is the same as averaging.", "quantifier": "all increasing grids of multipoles, all sky fractions; all probes and spectra", "why_tests_cant": "Tests use one logarithmic grid and look at single entries; what the weights mean shows only in sums over bands and in the comparison of two grids.", "anchors": ["jax_cosmo/angular_cl.py: gaussian_cl_covariance"]}
{"id": "C156", "title": "The curvature of space is seen by angular spectra", "statement": "Two universes with the same expansion and growth but different curvature, hence different distances across the line of sight, have different angular power spectra.", "quantifier": "all pairs of universes that differ in how much of their density is curvature and how much a fluid with w = -1/3; all probes, multipoles and transfer functions", "why_tests_cant": "No pair of cosmologies in the tests isolates the geometry; changes of Omega_k change the expansion as well and hide that it is ignored.", "anchors": ["jax_cosmo/angular_cl.py: angular_cl", "jax_cosmo/probes.py: weak_lensing_kernel", "jax_cosmo/background.py: transverse_comoving_distance"]}
{"id": "C157", "title": "Romberg integration in floating point", "statement": "The value that romb returns after rounding every operation is close to the Romberg value in exact arithmetic, whatever the order of summation, and stays positive for integrands that are nowhere negative.", "quantifier": "all roundings with relative error u, integrands, intervals, divmax, orders of summation and errors of the computed samples", "why_tests_cant": "Tests compare one integral with a reference at a loose tolerance; they neither bound the amplification of rounding by Richardson extrapolation nor exclude a negative variance.", "anchors": ["jax_cosmo/scipy/integrate.py: romb", "jax_cosmo/scipy/integrate.py: _difftrapn", "jax_cosmo/scipy/integrate.py: _romberg_diff", "jax_cosmo/power.py: sigmasqr"]}
{"id": "C158", "title": "The variance in spheres in floating point", "statement": "In single precision sigmasqr of a positive spectrum is positive and its top-hat window accurate for spheres of every radius.", "quantifier": "all radii, positive spectra, orders of summation, and libraries computing exp, sin and cos to a few units in the last place", "why_tests_cant": "Tests evaluate sigmasqr at R = 8 only and at a tolerance of per cent; cancellation in sin x - x cos x shows at small k R.", "anchors": ["jax_cosmo/power.py: sigmasqr", "jax_cosmo/power.py: linear_matter_power", "jax_cosmo/scipy/integrate.py: romb"]}
{"id": "C159", "title": "A universe with few baryons is close to one without", "statement": "When the density of baryons tends to zero at a fixed density of matter, both transfer functions tend at every wavenumber to those of cold dark matter alone.", "quantifier": "all densities of matter, Hubble parameters and wavenumbers", "why_tests_cant": "Tests use the Planck share of baryons. The formula for the sound horizon is of the form infinity times zero in the limit, so a program that is close at 5 per cent of baryons may diverge below.", "anchors": ["jax_cosmo/transfer.py: Eisenstein_Hu"]}
{"id": "C160", "title": "Sources at nearly the same redshift lens like a plane", "statement": "As the width of a bin of sources around redshift z0 tends to zero, its lensing kernel tends to that of the plane delta_nz(z0).", "quantifier": "all cosmologies, redshifts of sources and lenses, ranges and multipoles", "why_tests_cant": "Tests use bins much wider than the 256 steps of the quadrature, and test delta_nz only on its own.", "anchors": ["jax_cosmo/probes.py: weak_lensing_kernel", "jax_cosmo/redshift.py: kde_nz.pz_fn", "jax_cosmo/redshift.py: redshift_distribution.__call__", "jax_cosmo/scipy/integrate.py: simps"]}
{"id": "C161", "title": "Differentiating the distance by redshift gives the Hubble radius", "statement": "The derivative of radial_comoving_distance with respect to redshift, as automatic differentiation returns it, is c/H(z).", "quantifier": "all universes of matter, curvature and dark energy neither phantom nor stiffer than radiation, all tables, all redshifts between nodes", "why_tests_cant": "Tests compare distances, whose errors are 1e-3 and less, and gradients with respect to parameters; the slope of an interpolated table is piecewise constant and its error is of lower order.", "anchors": ["jax_cosmo/background.py: radial_comoving_distance", "jax_cosmo/background.py: dchioverda", "jax_cosmo/scipy/interpolate.py: interp"]}
{"id": "C162", "title": "The growth rate is the logarithmic slope of the growth factor", "statement": "growth_rate(a) is d ln growth_factor / d ln a, the derivative taken of the function the library returns, as automatic differentiation takes it.", "quantifier": "all universes of matter, curvature and dark energy, both modes (growth equation and growth index), all tables, all scale factors between nodes", "why_tests_cant": "Tests compare growth factor and growth rate each with reference tables; nothing compares them with each other, and the slope of an interpolated table jumps at its nodes.", "anchors": ["jax_cosmo/background.py: growth_factor", "jax_cosmo/background.py: growth_rate", "jax_cosmo/background.py: _growth_factor_ODE", "jax_cosmo/background.py: _growth_rate_ODE", "jax_cosmo/background.py: _growth_factor_gamma", "jax_cosmo/background.py: _growth_rate_gamma", "jax_cosmo/scipy/interpolate.py: interp"]}
{"id": "C163", "title": "Distances in floating point", "statement": "The distance radial_comoving_distance returns in single precision differs from the comoving distance by at most a fixed fraction of it; the table is exactly zero today, never negative and decreasing.", "quantifier": "all universes, all roundings with error at most u (binary arithmetic with any number of digits from 10 for the small distances), all computed rates within q roundings, all tables, all scale factors", "why_tests_cant": "Tests run at a handful of redshifts of order one, where the error relative to the distance is small; the loss appears for sources near us, and rounding differs between machines.", "anchors": ["jax_cosmo/background.py: radial_comoving_distance", "jax_cosmo/scipy/ode.py: odeint", "jax_cosmo/scipy/interpolate.py: interp"]}
{"id": "C164", "title": "Expansion rate and energy budget in floating point", "statement": "Esqr(cosmo, 1) is exactly one and H(cosmo, 1) exactly const.H0 in floating point, because Omega_m + Omega_k + Omega_de = 1; at other scale factors Esqr is within a few roundings of the magnitudes that enter.", "quantifier": "all densities and equations of state, all scale factors, binary arithmetic with any number of digits from 5 and any elementary functions of bounded error", "why_tests_cant": "Tests compare with a tolerance of a percent; whether the budget closes exactly depends on the last digit of the densities and is different for almost every input.", "anchors": ["jax_cosmo/background.py: Esqr", "jax_cosmo/background.py: H", "jax_cosmo/background.py: f_de", "jax_cosmo/core.py: Omega_de", "jax_cosmo/core.py: Omega_m"]}
{"id": "C165", "title": "Distance table in single precision against the line-of-sight integral", "statement": "In single precision, from the library functions through Esqr, dchioverda and the 256-node quadrature, every tabulated distance is within 1.71e-4 of the line-of-sight integral plus a rounding error of at most 4.2e-5 (cosmological constant) or 3.2e-4 (dark energy with w <= -1/3) of the distance to the first node.", "quantifier": "all universes with non-negative densities, -1 <= w <= -1/3 (more generally those in which dark energy alone does not expand faster), all computed nodes between ln a = -7 and 0 at most 0.0272 apart, all libraries accurate to two units in the last place", "why_tests_cant": "A test compares one build on one machine with one cosmology; the last digits of exp, log, sqrt and power differ between CPU, GPU and library versions and the error accumulates over 256 steps.", "anchors": ["jax_cosmo/background.py: dchioverda", "jax_cosmo/background.py: Esqr", "jax_cosmo/background.py: H", "jax_cosmo/background.py: radial_comoving_distance", "jax_cosmo/scipy/ode.py: odeint"]}
{"id": "C166", "title": "Growth factor today in floating point", "statement": "In floating point, with every operation rounded, the growth factor is normalised to one today: the last entry of the table built by the growth equation is exactly one, what is returned is between zero and one, and reading the default table at a = 1 gives exactly one, not one minus a rounding unit, although the interpolation evaluates slope times one plus intercept with a rounded slope. This holds in every binary format when the last cell of the table starts after a = 1/2 and the table is not much below the scale factor there; the default table of every physical universe leaves room for an error of one part in a thousand.", "quantifier": "all binary formats of at least three digits, all tables of at least three increasing entries, all parameters of a physical universe", "why_tests_cant": "A test compares with a tolerance or for a few parameter values; that the six roundings always cancel for all table entries is a statement about every pair of numbers of the format.", "anchors": ["jax_cosmo/background.py: _growth_factor_ODE", "jax_cosmo/scipy/interpolate.py: interp", "jax_cosmo/scipy/ode.py: odeint"]}
{"id": "C167", "title": "Log likelihood of one spectrum in floating point", "statement": "In floating point, with every operation rounded and the sums taken in any order, the log likelihood of one spectrum (sparse covariance of one block) agrees with the exact one up to a bound: without the determinant a relative error that grows with the depth of the sum only, with the determinant an error measured by the sum of the quadratic form and of the sizes of the logarithms. A worse fit has a smaller likelihood, and the determinant of a positive matrix is not zero.", "quantifier": "all roundings with a relative error, all libraries whose logarithm is accurate, all orders of summation, all data, models and positive variances", "why_tests_cant": "Tests compare one or two covariances with a tolerance; the loss appears only for data vectors too long for a test and for variances whose product leaves the range of the format.", "anchors": ["jax_cosmo/likelihood.py: gaussian_log_likelihood", "jax_cosmo/sparse.py: slogdet", "jax_cosmo/sparse.py: det", "jax_cosmo/sparse.py: inv"]}
{"id": "C168", "title": "Angular spectra in floating point", "statement": "In floating point, with every operation of the Limber sum rounded and added in any order, no auto-spectrum is negative, exchanging the two tracers changes no digit, the spectrum of kernels of one sign has a relative error that depends on the depth of the sum only, and the matrix of observed spectra at a multipole is positive semi-definite.", "quantifier": "all roundings with a relative error, all orders of summation, all kernels, all non-negative power spectra and distance elements, any number of tracers", "why_tests_cant": "A test compares a few spectra with a tolerance; that rounding never makes the matrix of spectra indefinite is a statement about all kernels, and it fails by one unit in the last place for particular numbers only.", "anchors": ["jax_cosmo/angular_cl.py: angular_cl", "jax_cosmo/angular_cl.py: noise_cl", "jax_cosmo/angular_cl.py: gaussian_cl_covariance", "jax_cosmo/scipy/integrate.py: simps"]}
{"id": "C169", "title": "Redshift distributions and lensing kernels in floating point", "statement": "In floating point, with every operation rounded and sums taken in any order: a normalised redshift distribution is not negative, keeps the order of its values and integrates to one up to roundings; the lensing row of sources is not negative, has a small relative error given the distances, and vanishes exactly behind all sources; the efficiency of a single plane lies between zero and one and falls with the distance of the lens; the prefactor of a field of spin two stays below one and grows with the multipole.", "quantifier": "all roundings with a relative error, all orders of summation, all distances, all non-negative distributions, all multipoles", "why_tests_cant": "Signs, exact zeros and monotonicity under rounding are statements about every input of the format; tests compare with a tolerance and do not see a prefactor that exceeds one in the last place.", "anchors": ["jax_cosmo/redshift.py: redshift_distribution.__call__", "jax_cosmo/probes.py: weak_lensing_kernel", "jax_cosmo/scipy/integrate.py: simps"]}
{"id": "C170", "title": "A forecast for one tracer in floating point", "statement": "In floating point, with every operation rounded and sums taken in any order: the mean of a forecast for one tracer is wrong by at most a fixed fraction of its standard deviation times the square root of the number of modes; its variance has a small relative error; the chi-square of data equal to the exact spectrum is at most proportional to the total number of modes, in single precision 1.4e-10 of it; for any data the computed chi-square follows the exact one.", "quantifier": "all roundings with a relative error, all orders of summation, all increasing multipoles, all positive noise levels, all non-negative power at the nodes, all data", "why_tests_cant": "The bound combines the errors of a 512-interval sum, a noise term, a variance and a quadratic form for every survey; tests compare one spectrum with a tolerance and never look at the fit a rounded spectrum gives.", "anchors": ["jax_cosmo/angular_cl.py: gaussian_cl_covariance_and_mean", "jax_cosmo/angular_cl.py: gaussian_cl_covariance", "jax_cosmo/angular_cl.py: noise_cl", "jax_cosmo/likelihood.py: gaussian_log_likelihood"]}
{"id": "C171", "title": "Biases, clustering and alignment kernels in floating point", "statement": "In floating point, with every operation rounded: a bias model reproduces its amplitude to the last digit at its reference point and keeps the order of redshifts and growth factors; the clustering and alignment kernels have small relative errors, the right sign, and vanish exactly where there are no galaxies; the kernel of a lensing probe with alignments has a small error relative to the sizes of its two parts; where that kernel is positive it is not computed as negative.", "quantifier": "all roundings with a relative error, all biases, redshifts, growth factors, expansion rates, multipoles and multiplicative biases", "why_tests_cant": "Exact reproduction, signs and order under rounding are statements about every input; the loss of the sign occurs only where lensing and alignments nearly cancel.", "anchors": ["jax_cosmo/bias.py: constant_linear_bias.__call__", "jax_cosmo/bias.py: inverse_growth_linear_bias.__call__", "jax_cosmo/bias.py: des_y1_ia_bias.__call__", "jax_cosmo/probes.py: density_kernel", "jax_cosmo/probes.py: nla_kernel", "jax_cosmo/probes.py: WeakLensing.kernel"]}
{"id": "C172", "title": "Changes of unit in floating point", "statement": "In floating point, with every operation rounded: scaling an amplitude by c scales a bias, kernel, tabulated distance or spectrum by the matching power of c to the last digit; scaling sigma8 or the growth factor scales the linear power by c squared; the normalisation of a transfer function, primordial spectrum or redshift distribution changes nothing; and expressing data, kernels and noise of a forecast in other units leaves its chi-square bitwise unchanged.", "quantifier": "all binary precisions, all factors c, all inputs and all orders of summation; numbers of any exponent", "why_tests_cant": "Bitwise invariance is a statement about every input and every order of summation; a test with a convenient factor such as 2 or 1024 passes although the claim fails for 5.", "anchors": ["jax_cosmo/bias.py: constant_linear_bias.__call__", "jax_cosmo/redshift.py: redshift_distribution.__call__", "jax_cosmo/probes.py: WeakLensing.kernel", "jax_cosmo/probes.py: NumberCounts.kernel", "jax_cosmo/background.py: radial_comoving_distance", "jax_cosmo/power.py: linear_matter_power", "jax_cosmo/power.py: sigmasqr", "jax_cosmo/angular_cl.py: angular_cl", "jax_cosmo/angular_cl.py: gaussian_cl_covariance", "jax_cosmo/likelihood.py: gaussian_log_likelihood"]}
{"id": "C173", "title": "Overflow and underflow in a fit", "statement": "In a binary format with a limited range of exponents, with or without flushing of small numbers to zero: a result within the range is what it would be with unlimited exponents; the Gaussian variance and the chi-square of one spectrum with moderate values are computed without leaving the range, in every order of summation; the chi-square is the same in all units that differ by a power of two, and a misfit of n standard deviations in one band gives n squared.", "quantifier": "all formats (first claim); single precision, all spectra, numbers of modes, data, means and orders of summation (the others)", "why_tests_cant": "Overflow and underflow happen for particular magnitudes only; absence of both for every value in a range and every order of summation cannot be enumerated.", "anchors": ["jax_cosmo/angular_cl.py: gaussian_cl_covariance", "jax_cosmo/likelihood.py: gaussian_log_likelihood", "jax_cosmo/sparse.py: inv", "jax_cosmo/sparse.py: dot"]}
{"id": "C174", "title": "Orders of summation in floating point", "statement": "The order in which the terms of a sum are added, which the compiler chooses, does not change results: exchanging operands or adding two numbers is always exact, whole multiples of a power of two have one sum while they fit the format, sums are monotone and never less than one of their non-negative terms in any order, and a fit gives the same number in all orders.", "quantifier": "all roundings (or binary precisions), all orders of summation given as binary trees, all data, means, variances and kernels", "why_tests_cant": "The order is chosen by the compiler and differs between machines, batch sizes and versions; a test runs one of them.", "anchors": ["jax_cosmo/scipy/integrate.py: simps", "jax_cosmo/likelihood.py: gaussian_log_likelihood", "jax_cosmo/sparse.py: dot", "jax_cosmo/angular_cl.py: angular_cl"]}
{"id": "C175", "title": "Transfer functions in floating point", "statement": "In floating point the smooth transfer function and those of cold dark matter lie between zero and one and are one at zero wavenumber, the effective shape lies between its limits, the smooth one carries a relative error fixed by the number of operations, and every mode is suppressed, smaller scales more.", "quantifier": "all binary precisions of at least three digits (all roundings for the accuracy), all wavenumbers, shapes and parameters of the fit, all libraries of elementary functions with the stated accuracy", "why_tests_cant": "Tests compare tabulated wavenumbers to a tolerance; the largest scales, where one is all that is left, and other precisions are not among them.", "anchors": ["jax_cosmo/transfer.py: Eisenstein_Hu"]}
{"id": "C176", "title": "The shape of the linear power spectrum in floating point", "statement": "The linear power is normalised by an integral over a window that is not accurate in floating point; the computed power is nevertheless a common factor times its parts to their accuracy, so that ratios of powers at two wavenumbers agree with those of the exact model, in single precision to three parts in ten thousand, and every power is computed as a positive number.", "quantifier": "all roundings with the stated accuracy of elementary functions (single precision for the figure), all baryonic cosmologies with the effective shape of a positive fraction, all pairs of positive wavenumbers, scale factors and orders of summation", "why_tests_cant": "Tests compare with another code at fixed wavenumbers and cosmologies to a per cent and cannot separate the shape from the normalisation.", "anchors": ["jax_cosmo/power.py: linear_matter_power", "jax_cosmo/power.py: sigmasqr", "jax_cosmo/power.py: primordial_matter_power", "jax_cosmo/transfer.py: Eisenstein_Hu"]}
{"id": "C177", "title": "Better and worse surveys in floating point", "statement": "In floating point, with every operation rounded and sums in any order: the linear power does not fall when sigma8 or growth rises, a spectrum does not fall when the power or the kernels rise or structure moves nearer, noise does not lower an observed spectrum nor enter that of two tracers, and a survey with more noise or less sky never has a larger chi-square; more noise is always seen in the observed spectrum.", "quantifier": "all roundings, all orders of summation, all inputs of the Limber sum that are not negative, all noise levels, sky fractions, multipoles and data", "why_tests_cant": "Monotonicity to the last digit concerns all pairs of surveys; tests compare single values within a tolerance that hides a last digit of the wrong sign.", "anchors": ["jax_cosmo/power.py: linear_matter_power", "jax_cosmo/angular_cl.py: angular_cl", "jax_cosmo/angular_cl.py: noise_cl", "jax_cosmo/angular_cl.py: gaussian_cl_covariance", "jax_cosmo/likelihood.py: gaussian_log_likelihood"]}
{"id": "C178", "title": "Accuracy of the cold dark matter transfer function in floating point", "statement": "In floating point the transfer function of cold dark matter in the presence of baryons has a relative error fixed by the number of operations at every wavenumber, although the weight 1 - f of its second part loses all its digits on large scales.", "quantifier": "all roundings, all wavenumbers, sound horizons and parameters of the fit with 0 < alpha_c <= 1 and beta_c >= 0, all libraries with the stated accuracy of log, exp(1) and of the power at the wavenumber", "why_tests_cant": "Large scales, where the weight is lost, are those where the second part hardly contributes; that the two never conspire is a statement about all wavenumbers.", "anchors": ["jax_cosmo/transfer.py: Eisenstein_Hu"]}
{"id": "C179", "title": "The linear power on the largest scales in floating point", "statement": "In floating point the smooth transfer function is exactly one on the largest scales, so that the computed linear power is the primordial one times a constant; for a primordial spectrum proportional to the wavenumber it doubles exactly when the wavenumber does, whereas exact operations bend the spectrum on every scale.", "quantifier": "all binary formats of at least three digits, all libraries that are sane with log(x) >= 1/2 from x = 2, all wavenumbers below the stated fraction of the shape, all normalisations, growth factors and orders of summation", "why_tests_cant": "A comparison of powers within a tolerance cannot tell a bend below the last digit from none; where it vanishes depends on format, shape and wavenumber together.", "anchors": ["jax_cosmo/transfer.py: Eisenstein_Hu", "jax_cosmo/power.py: linear_matter_power"]}
