# Formal model of Gyoto: design

Source under study: `/repo` (Gyoto, C++), read as text; never built, run or changed.
Model and proofs: Lean 4.33.0 with Mathlib, Lake project in `lean/`.

## Layout

* `lean/Verif/Model/*.lean` — the model: definitions transcribed from the C++, each with file and lines.
* `lean/Verif/Spec/*.lean` (or a `Spec` section at the head of a property file) — specifications that do
  not mention model helpers.
* `lean/Verif/Lemmas/*.lean` — helper lemmas.
* `lean/Verif/Props/*.lean` — the property theorems, each next to an `example` which instantiates its
  hypotheses on a concrete non-trivial case.
* `MANIFEST.json` — property → theorems. `seeded/LOG.jsonl` — wrong-program experiments.

## Trusted base

* Lean's kernel, and the axioms `propext`, `Classical.choice`, `Quot.sound` (no others; see the section
  "Axioms" below, regenerated with `#print axioms`).
* That the definitions in `Model/` are faithful transcriptions of the cited lines. This is by reading: the
  code cannot be built here.
* Modelling conventions (below).

## Modelling conventions (simplifications that apply everywhere)

* `double` is modelled by a field: `ℝ`, `ℚ` or a generic linearly ordered field. Rounding, overflow to
  infinity and NaN are not modelled, except where a property is about them (then it is said so).
* `size_t`/`int` used as sizes and indices are `Nat`/`Int` without overflow, except where overflow
  matters (`BitVec`/modular arithmetic is used and said so).
* Undefined behaviour (out-of-bounds access, use of a destroyed object, null dereference) is a distinct
  outcome of the model, so that a theorem "no undefined behaviour" has content.
* `GYOTO_ERROR` is a distinct outcome `error` (an exception, state unchanged where the code throws before
  writing).
* Code in `#ifdef HAVE_UDUNITS` is not modelled unless said so; the `#else` branch is. `HAVE_MPI` and
  `HAVE_PTHREAD` branches are modelled where said so.
* Threads: critical sections protected by a mutex are atomic steps; private computations of a worker
  are steps on private state; a schedule is an arbitrary interleaving.

## Plan per property

| id | what is modelled | how it is proved |
|----|------------------|------------------|
| C01 | `SmartPointee` counter and `SmartPointer` constructors, assignments, destructor over a heap where objects may hold handles; destruction cascades | invariant "count = number of handles + pending releases", induction over histories; use-after-free is an outcome |
| C02 | `Teller` singly linked list, hook / unhook / tell | refinement to an abstract list of registrations, induction over histories |
| C03 | index variables of `Worldline` and the arrays; `xExpand`, `setInitCoord`, the fill loop | invariant by induction over histories; refinement to a double-ended sequence |
| C04 | the binary search of `getCoord(dates…)` with its persistent bracket | loop invariant, any list of dates |
| C05 | `checkPhiTheta` over ℝ | case analysis + trigonometry |
| C06 | `Range`, `Grid` iterators | induction over iteration |
| C07 | `SceneryThreadWorker` as a transition system | invariant over all interleavings, then refinement to the sequential image |
| C08 | MPI manager loop as a transition system | same |
| C09 | buffer offsets as computed by the code | disjointness; expected to be refuted for two spectral quantities (then `_partial`) |
| C10 | quantity names table, printer, parser | induction on lists of tokens + finite bit set algebra |
| C11 | `Properties` as a record of optional offsets | algebra |
| C12, C13 | chained property tables, `get`/`set` | induction on chains; frame lemmas |
| C14 | decimal printing and `strtol`/`strtoul`/`atol` on digits | round trip by induction; expected refutation for `unsigned long ≥ 2^63` in vectors |
| C15 | "write once" logic of the `Factory` | induction over sequences of references |
| C16 | `fullPath` | case analysis on strings |
| C17 | linked list of register entries | induction over histories |
| C18 | `split` | induction on the text |
| C19 | `debug`/`verbose` | finite state; refutation + partial |
| C20 | `matrix4Invert` | either proof by `field_simp`/`ring` or refutation with rational witness + partial |
| C21 | `matrix4CircularInvert` | algebra |
| C22–C25 | algebra of `Metric::Generic` over ℝ | algebra with finite sums |
| C26, C27 | default-method dispatch with its flags | finite whole-table decision lifted to all histories by an invariant |
| C28 | default polarised coefficients | refutation + partial |
| C29–C31 | camera geometry over ℝ | trigonometry, algebra |
| C32, C33 | interpolation and index computation | induction on the dimension; refutations at boundary points + partial |
| C34, C35 | search and stepping loops over abstract functions | loop invariants |
| C36 | refinement loop of `integrateEmission` | induction on refinements |
| C37 | converters | case analysis, algebra |
| C38 | names table and copy constructors | finite case analysis; refutation + partial |
| C39 | transmission arrays | induction on sequences |
| C40 | channel tables | induction / sums |
| C41 | step clamps | order algebra |
| C42 | mask state machine | induction over histories |

Floating-point rounding, the numerical accuracy of Boost's ODE integrators, image content (astrophysics), file
formats read through Xerces/CFITSIO and dynamic loading cannot be expressed faithfully here and are out of
scope.

## What is modelled

One module of `Verif/Model` per line; every definition cites the lines it transcribes.

| module | code | properties |
|---|---|---|
| SmartPtr | `include/GyotoSmartPointer.h`, `lib/SmartPointer.C` | C01 |
| Hooks | `lib/Hooks.C` | C02 |
| Worldline, DateSearch | storage and `getCoord(dates)` of `lib/Worldline.C`, `hit` of `lib/Photon.C` | C03, C04 |
| PhiTheta | `checkPhiTheta` in `lib/Worldline.C` and its callers in `lib/WorldlineIntegState.C` | C05 |
| CoordSet | sets of screen positions, `lib/Screen.C`, `include/GyotoScreen.h` | C06 |
| Threads, Mpi | ray tracing by threads and by processes, `lib/Scenery.C` | C07, C08 |
| Quantities | names, words and buffers of the quantities, `lib/Scenery.C`, `lib/Astrobj.C` | C09–C11 |
| Property, ObjectTree | `lib/Property.C`, `lib/Object.C`, `lib/Value.C` | C12, C13, C43–C45 |
| IntText | integers written and read, `lib/Factory.C`, `lib/Object.C` | C14 |
| Factory | sharing of components and file names, `lib/Factory.C` | C15, C16 |
| Register | `include/GyotoRegister.h`, `lib/Register.C` | C17 |
| Text | `split`, `debug`, `verbose` in `lib/Utils.C` | C18, C19 |
| Matrix4 | `matrix4Invert`, `matrix4CircularInvert` in `lib/Utils.C` | C20, C21 |
| MetricAlg | pointwise algebra of `lib/Metric.C` | C22–C25 |
| MetricDispatch | default methods of `lib/Metric.C` | C26, C27 |
| Emission | default emission methods of `lib/Astrobj.C` | C28 |
| Transfer | transmission along a ray, `lib/Photon.C`, `lib/Astrobj.C` | C39, C46 |
| Camera, Mask | `lib/Screen.C` | C29–C31, C42, C47–C50 |
| Interp | `interpolate` in `lib/Astrobj.C`, `lib/GridData2D.C` | C32, C33 |
| ChannelInt | `integrateEmission` in `lib/Astrobj.C` | C36 |
| Bisect | `findValue`, `findMin` in `lib/Photon.C` | C34 |
| Impact, ThinDisk | `lib/StandardAstrobj.C`, `lib/ThinDisk.C` | C35, C53 |
| Converters | `lib/Converters.C`, both builds | C37 |
| Integrator, Step, Three1 | `lib/WorldlineIntegState.C`, settings of `lib/Worldline.C`, step limits | C38, C41, C54–C57 |
| Spectrometer | `lib/Spectrometer.C`, `lib/UniformSpectrometer.C`, `lib/ComplexSpectrometer.C` | C40, C60 |
| Evpa, BField | polarisation angle and magnetic field of an emitter, `lib/Astrobj.C` | C51, C52 |
| Refined | refined worldlines in `lib/Worldline.C`, `lib/ComplexAstrobj.C` | C58, C59 |
| KerrBL | metric, inverse, symbols, lapse and shift in `lib/KerrBL.C` | C61–C63 |
| Static, BalasinGrumiller | `lib/Minkowski.C`, `lib/SchwarzschildHarmonic.C`, `lib/ReissnerNordstrom.C`, `lib/RezzollaZhidenko.C`, `lib/BalasinGrumiller.C` | C61, C62, C64, C65 |
| KerrMotion | Hamilton's equations, momenta, constants of the motion and their repair in `lib/KerrBL.C` | C66–C68 |
| Orbits | circular orbits, angular momenta, potentials, remarkable radii of the metrics above | C69–C71 |
| KerrTetrad | `observerTetrad` in `lib/KerrBL.C` | C72 |
| Kerr31 | `diff31` in `lib/KerrBL.C` | C73 |
| GenericMotion | `christoffel`, `diff`, `myrk4` of `lib/Metric.C` | C74, C75 |
| Adaptive | `myrk4_adaptive` of `lib/Metric.C` | C76 |
| KerrKS | metric, inverse, derivatives, stop condition, circular velocity in `lib/KerrKS.C` | C79, C80 |
| Hayward | metric, inverse, Christoffel symbols, circular velocity, angular momentum, potential and scalar product in `lib/Hayward.C` | C81, C82 |
| Chern-Simons | metric, inverse, right-hand side of the geodesic equation and circular velocity in `lib/ChernSimons.C` | C83, C84 |
| PatternDisk | the arrays and setters, copies, look-up, emission, transmission and velocity of disks read from a grid, `lib/PatternDisk.C` (FITS input and output and the setters taking bare pointers are not modelled) | C85, C89 |
| Disk3D | the arrays and setters, copies, look-up, velocities and the walk along the photon of thick disks read from a grid, `lib/Disk3D.C` (FITS input and output and the setters taking bare pointers are not modelled; the photon's worldline is a function of the date) | C86, C87, C89 |
| DirectionalDisk | the arrays and setters, copies, look-up and emission of `lib/DirectionalDisk.C` (FITS input and output and the setters taking bare pointers are not modelled) | C88, C89 |
| DynDisk | memory, look-up in time, reading, copy and destruction of disks read from a series of files, `lib/DynamicalDisk.C` with the part of `fitsRead` of `lib/PatternDisk.C` that allocates (the heap is modelled; the calls to cfitsio are outcomes; the opacity, `dirname_` and the dimensions are left out) | C90, C91 |
| Functors | `ridders` and `secant` of `lib/Functors.C` (reals for doubles; a division by zero or the root of a negative number is the outcome `nan`) | C92 |
| Spectrum | `integrate` and the intensity of a slab, `lib/Spectrum.C` (reals; the debug messages are left out) | C93 |
| UniformSphere | emission, transmission, distance and step of `lib/UniformSphere.C`, with the two lines of `processHitQuantities` that accumulate, redshift 1 | C94 |
| SpectrumKinds | setters and values of `lib/PowerLawSpectrum.C` and `lib/BlackBodySpectrum.C` (the conversion of units is a parameter) | C95 |
| Shift | `lib/Shift.C` and `lib/ComplexMetric.C`: tensors, stop condition, offset, list of elements; the masses and the hooks between `Shift`s and metrics that are not `Shift`s | C96 |
| Extent | `operator()`, `rMax` and setters of `lib/Torus.C`, `lib/FixedStar.C`, `Star::rMax`, and the test `rr<rmax` of `Photon::hit` (reals; `DBL_MAX` is `none`; not the metric `SchwarzschildHarmonic`) | C97 |
| PageThorne | `lib/PageThorneDisk.C`: `updateSpin`, `metric`, `tell`, `bolometricEmission`, the temperature in `emission`, the flow of `processHitQuantities` (reals; for spin 0 the 0/0 coefficient of a logarithm is 0, its limit; not the polarised transfer) | C98 |
| KRZ | `lib/KonoplyaRezzollaZhidenko.C`: the setters and the copy constructor, `Definer0`, the parameters, `N2`, `B`, `Sigma`, `W`, `K2` and their derivatives, `gmunu`, `gmunu_up`, `christoffel`, `KeplerianSpecificAngularMomentum`, `KeplerianAngularVelocity`, `circularVelocity` (reals; not `rms`, `KeplerianEnergy`, `KeplerianAngularMomentum`, the branch `keplerian_` and the error for `r <= 0`) | C99 |
| HitQuantities | `lib/Astrobj.C:163-448` (`processHitQuantities`), `lib/Photon.C:677-698` (stop behind opaque objects); the object is known by what its methods answer, debugging output left out | C100 |
| Plunge | `lib/ThinDiskProfile.C:216-391` (`getVelocity`, with Kerr in Boyer–Lindquist coordinates and Rezzolla–Zhidenko), `lib/ThinDiskGridIntensity.C:330-360`, `lib/SimBridge.C:834-857`, `lib/StochasticThinDisk.C:317-370` (reals; the branch for Konoplya, Rezzolla and Zhidenko left out) | C101 |
| ProfileDisk | `lib/ThinDiskProfile.C:58-91`, `126-213` (with the angle given), `393-485`, `lib/StochasticThinDisk.C:116-125`, `372-459` (reals; messages left out) | C102 |
| Stochastic | `lib/StochasticThinDisk.C:57-114`, `127-144`, `175-262`, `309-315` (reals; the generator and the zeros of the Bessel functions are what they return; `std::cyl_bessel_j` of natural order is Bessel's integral) | C103 |
| Moving | `lib/FreeStar.C:41-209`, `lib/Blob.C:41-71`, `161-205`, `800-895`, `lib/Plasmoid.C:45-53`, `448-658`, `lib/InflateStar.C:70-139` (reals; arrays not written are `none`; messages left out; the radiation of Blob and Plasmoid is not modelled) | C104-C107 |
| Synch | `lib/ThermalSynchrotronSpectrum.C`, `lib/PowerLawSynchrotronSpectrum.C`, `lib/ThermalBremsstrahlungSpectrum.C` | coefficients, averages over the directions and both `radiativeQ`; disabled branches (`useWZ00`, `USE_IPOLE_FORMALISM`, `usePMT83`) and the Bessel functions are not modelled; NaN is `ub`; a negative number to a power is `ub` even where the power is an integer |
| SphAcc | `lib/SphericalAccretion.C`, and the last loop of seven other `radiativeQ` | `slab`, setters, `operator()`, unpolarised `radiativeQ`, `getVelocity`; `x==x+1.` is `x >= 2^53`; units, hooks and the polarised `radiativeQ` (which throws) are not modelled |
| StarTrace | `lib/StarTrace.C`, with `Worldline::setInitCoord`, `reInit`, `tell` | dates, cache of places, `operator()`; the integration that `xFill` does is an input; memory is C03 |
| Kappa | `lib/KappaDistributionSynchrotronSpectrum.C` | all of it but the black body and the copy; a pole of `tgamma` and a zero frequency are `ub`; Bessel functions are what they return |
| HotSpot | `lib/EquatorialHotSpot.C` | beaming, old tags, `getVelocity`, `emission`, unpolarised `radiativeQ`; the motion, the metric and its `circularVelocity` are inputs; `Position` and `Velocity` tags are those of the star (C104) |
| StokesStep | the loop that ends the polarised `radiativeQ` of seven objects (`lib/EquatorialHotSpot.C:367-392` and copies), from given coefficients to Stokes parameters and matrix | the coefficients and `Chi` are inputs; `isnan`, `isinf` are left out (reals); the linear solver of Eigen is the inverse matrix |
| PolarSpot | `lib/Astrobj.C:672-690` (`get_theta_mag`), `lib/EquatorialHotSpot.C:247-393` (polarised `radiativeQ`) | C117. The vectors transported with the photon are inputs; the Bessel functions are parameters. |
| Jet | `lib/Jet.C:67-206` (setters), `:264-291`, `:635-662` (density, temperature), `:318-339`, `:680-712` (field), `:412-485` (`operator()`), `:487-587` (`getVelocity`) | C118, C119, C120. The spectra are those of C108 to C111 and C114; `isThreadSafe`, `metric` and the copy are not modelled. |
| DeformedTorus | `lib/DeformedTorus.C:33-34` (`beta`), `:40-66` (kinds), `:109-168` (`operator()`), `:170-281` (`getVelocity`) | C121, C122. The copy, the metric hook, `mode` and `betaSt` (unused) and the emission (always 1) are not modelled. |
| OscilTorus | `lib/OscilTorus.C:68-132` (setters, kinds, file of areas), `:134-194` (constructor, copy), `:203-242` (`operator()`), `:244-312` (`getVelocity`), `:314-344` (`computeXbYb`), `:346-364` (`metric`, `tell`), `:366-462` (`updateCachedValues`), `:464-508` (`emission`), `include/GyotoProperty.h:108-115` | C123–C126. `setParameters` (one update at the end), the conversion of units, lines of the file with other contents than two numbers, and the step in which a metric other than KerrBL is refused are not modelled. The surface and the gas are compared in the slender limit (metric and rotation of the centre). |
| ThickDisk | `lib/ThickDisk.C:79-184` (setters, constructor), `:216-384` (`radiativeQ`), `:386-422` (`operator()`), `:424-500` (`getVelocity`), `:568-788` (polarised `radiativeQ`) | C127, C128. The field and the angles of the polarised light (C117, `Model/BField`) are arguments; the copy constructor, `setParameters` and the units are not modelled. |
| Flared | `lib/FlaredDiskSynchrotron.C:67-747`, setters and `fitsRead` of `lib/GridData2D.C:43-260` | C129, C130. The FITS library is replaced by the contents of a file; `Utils::hypergeom` is a parameter; powers of numbers that are not positive are undefined outcomes. |
| Doughnut | `lib/PolishDoughnut.C` (all but constructors of copies and the loops of `Impact` over dates) | C131, C132, C133, C134. What `ridders` returns is an option (C92 says when it is a number); the metric is what the object asks of one (`Hole`), instantiated with Kerr; warnings are not modelled. |
| Kerr2PN | `lib/Kerr2PN.C` (all) | C135. The class is not registered by a plug-in. |
| DiskLaws | `lib/ThinDiskPL.C`, `lib/PatternDiskBB.C`, `lib/ThinDiskIronLine.C`, `lib/DynamicalDiskBolometric.C` | C136. What `PatternDisk::emission` and `DynamicalDisk::emission` return is a parameter (modelled elsewhere), and so are conversions of units. |
| Lorene, LoreneMotion | `lib/NumericalMetricLorene.C:454-939`, `966-1440`, `1489-1862`, `1926-1949` | C137, C138. What Lorene does (fields, `val_point`, `dsdr`, `dsdt`, `stdsdp`) is a parameter: a field is its value and three derivatives; the specification says when the derivatives are those of the value. Reading files, horizons, surfaces and `jacobian` are not modelled. The errors on the axis are hypotheses. |
| LoreneOrbits | `lib/NumericalMetricLorene.C:349-420`, `2019-2123`, `lib/NeutronStar.C:101-157` | C139. What is not a number is an outcome of its own; at exactly the speed of light the outcome is called so too. `NeutronStarAnalyticEmission` only evaluates its spectrum and is not modelled. |
| Atmosphere | `lib/NeutronStarModelAtmosphere.C` | C140, C141 |
| DynDisk3D | dates, light and velocity of `lib/DynamicalDisk3D.C`; the files are not read | C142 |
| SimBridge | settings, dates, flags and sizes of tables of `lib/SimBridge.C`, free fall of its matter, shape of `lib/SimThickDisk.C`; a FITS file is the names of its tables, CFITSIO does nothing once its status is an error, as documented; the light computed from the coefficients is not modelled | C143 |
| RotStar | `lib/RotStar3_1.C` without the file, the Runge-Kutta formula (that of C77) and `ScalarProd`; `consnorm` is zero as in the code; the fields of Lorene as for Lorene | C144 |
| MinkowskiKepler (C145) | `lib/Minkowski.C` 182-221, 231-379 | a state is a record of 8 reals, a motion a differentiable curve of states; the second construction of the frame by the generic function is a parameter |
| Xillver (C146) | `lib/XillverReflection.C` 91-180, 371-391, 784-898 | reals; the loops on the azimuth are at most one turn after the check before them; `hook` is a list of metrics; the FITS files are left out |
| XillverRefl (C147) | `lib/XillverReflection.C` 743-782, 908-998 | reals; the ionization and the angle in degrees are arguments; the FITS files are left out |
| PolarBasis (C148) | `lib/Worldline.C` 1635-1715, `lib/WorldlineIntegState.C` 431-486, `lib/KerrBL.C` 1238-1256 | exact reals; infinities and NaN are one outcome (`ub`), so what the last check does with NaN is left out |
| IpoleField (C149) | `lib/Astrobj.C` 1471-1616 | exact reals; spherical coordinates and positive radius, as its only caller requires `KerrBL` |
| LoreneSettings (C150) | `lib/NumericalMetricLorene.C` 105-139, 1951-2017, `lib/Metric.C` 86-112 | tables are known by the directory and the flags of their reading; the files and the radii in them are left out |
| KerrRk4, KerrAdaptive | the two `myrk4` and `myrk4_adaptive` of `lib/KerrBL.C` | C77, C78 |

## What is not modelled

* Everything in `/repo` that no row above names.  In particular: the light of the objects read from simulations, FITS
  and XML parsing, the Yorick and Python bindings, the programs in `bin`.
* Rounding of floating-point operations (except for dates in C04 and C34, where any monotone rounding is allowed).
* The Runge-Kutta steppers of Boost, libudunits2, Xerces, CFITSIO, MPI, the threads library: where the code calls
  them, the model is parametrised by any function that satisfies the documented contract, stated as a hypothesis.
* Memory exhaustion.

## Axioms

Each theorem named in `MANIFEST.json` depends on a subset of `propext`, `Classical.choice` and `Quot.sound`, as reported by
`#print axioms`.  The project declares no axiom and uses neither `sorry`, `native_decide` nor `bv_decide`.

## Disagreements between code and properties

Each of the following is either proved (theorem named `…_wrong` or similar in the property's file, listed in `MANIFEST.json`)
or, when marked (read), noticed while transcribing and outside the property's statement.

* **C01** Assigning to a handle from a handle stored inside the object it keeps alive reads a destroyed object; a raw pointer
  kept beside handles is left dangling.
* **C02** A listener that unhooks itself while being told makes `tell` read a deleted node.
* **C03** `Photon::hit` can step outside of the arrays at both ends when the storage is full.
* **C05** Transported basis vectors are not reflected with the position; in 3+1 variables `doStep` flips the wrong component.
* **C06** An empty range has a size of one, or wraps.
* **C07** Explicit lists of pixels are read past their end when their lengths differ.
* **C09** With two spectral quantities and two channels, blocks in the message overlap.
* **C12** A class's name is found as if it were a property, and setting it is silently ignored.
* **C13** A value of the wrong numeric type is converted instead of refused.
* **C14** Unsigned integers from 2^63 on inside vectors are read with `atol`, out of its range.
* **C19** `debug(1); debug(2); debug(0)` forgets the verbosity to restore.
* **C20** `matrix4Invert` is wrong when three or more coordinates are coupled.
* **C28** The default polarised method returns an absorption coefficient where a transmission is expected.
* **C30** Setting the position of the camera resets the position angle of the line of nodes to π.
* **C32** In N dimensions the limit condition of another dimension is consulted; a dimension of length one gives NaN.
* **C33** A query exactly at the last node of a regular grid reads past the end; periodic queries are wrong unless the first
  node is at 0; `GridData2D` reads past the end at the upper limits of radius and azimuth.
* **C34** The search for a date never ends when neighbouring representable dates are further apart than the tolerance.
* **C35** A step of zero is accepted and loops for ever.
* **C36** A negative integral makes the refinement loop run for ever.
* **C37** `FromMeters` multiplies by c instead of dividing for times and frequencies; `FromHerz` returns 0 without libudunits2;
  "geometrical" is refused for geometrical times.
* **C38** The classic Cash-Karp integrator reports a name that cannot be selected; copies and changes of integrator lose the
  3+1 setting.
* **C39** Copying a photon resets the recorded transmission at the observer's frequency and copies only the first matrix.
* **C40** `nSamples(0)` leaves one boundary announced with no array; a composite is not told when a part loses all its channels;
  appending the same part twice and removing it once makes the composite deaf.
* **C41** The smallest step wins over the largest when they are inconsistent.
* **C42** The file name of a mask that was dropped is kept and saved.
* **C43** The default `isThreadSafe` throws for objects with a screen property.
* **C46** `Omatrix` is the identity without Faraday and polarised absorption even if there is plain absorption.
* **C47** The check of the smallest distance compares r² with r.
* **C48** Directions are mirrored beyond a declination of 90°.
* **C49** The polarisation basis is not rotated by the offsets of the line of sight.
* **C50** The azimuth is scaled together with the radius when a distant observer with spherical angles is moved closer.
* **C51** With an electric field the angle is refused for all directions with north < 0 and west ≥ 0.
* **C52** The poloidal field in spherical coordinates is not orthogonal to an emitter moving towards smaller colatitudes; the
  parabolic one to any emitter moving in colatitude, and it is undefined on the axis.
* **C53** A point exactly on the plane is counted in both neighbouring segments; long steps whose ends are both outside of twice
  the outer radius are skipped although they cross the disk.
* **C55** The repair of the transported basis divides by zero for every photon and exchanges the two vectors.
* **C56** The Legacy integrator ignores the 3+1 setting.
* **C57** A smallest step of 0 is accepted and the search for a step may then never end; a step of 0 goes backwards.
* **C58** A part appended to a composite before any metric is known is left without when a later part brings one.
* **C59** A refinement step of 0 is accepted and the number of dates is then undefined.
* **C60** The getter of a logarithmic band in a unit exchanges logarithm and power.
* **C62** In the Balasin-Grumiller metric the derivative of the cross term in colatitude is wrong off the equatorial plane.
* **C64** Reissner-Nordström: the charge 1 is treated as without horizon; with a charge below -1 no geodesic is ever stopped.
* **C65** The copy of a Rezzolla-Zhidenko metric gets the marginally stable radius as its marginally bound radius.
* **C68** A negative Carter constant is never restored.
* **C69** The circular velocity of Rezzolla-Zhidenko ignores the direction asked for, and off the equatorial plane it is normalised
  at the projected point.
* **C71** With a negative spin `getRmb` is the retrograde radius while `getRms` is the prograde one.
* **C75** `Generic::myrk4` advances the first eight elements only: transported vectors stay as they are, and the later stages are given
  zeros for them.
* **C76** `Generic::myrk4_adaptive` joins the three calls of `myrk4` with `|`, whose operands C++ evaluates in any order; from right to
  left the function never succeeds.  It does not look at the code of the first `diff`, and its test of the norm has no effect.
* **C77** For colatitudes below -π/2 the steps of `KerrBL` do not see the axis.
* **C78** `KerrBL::myrk4_adaptive`, besides the uninitialised result below: when a momentum of 0 is corrected the relative change is
  computed as x/0 and the correction is dropped; a step of 0 near the axis loops for ever.
* **C79** `KerrKS::circularVelocity` leaves the spin out of Kepler's law: the circle is a geodesic only without spin.  With a spin
  above 1 the sink radius is not a number and no integration is ever stopped.
* **C81** `Hayward::gmunu_up(pos, 0, 3)` for a negative radius keeps the signs of positive radii in the terms with the charge; the
  matrix version of the same method has them right.
* **C82** `Hayward::circularVelocity` divides zero by zero where (r³+2b²)² = a²(r³-4b²), which orbits of a fast rotating hole without
  horizon can meet.
* **C83** `ChernSimons::circularVelocity` never reads `dir`: asked for a counter-rotating orbit it returns the co-rotating one.
* **C84** `ChernSimons::diff` writes `(costheta2-1./ff)` in `res[0]` and `res[3]` where the metric requires `(costheta2+1./ff)` (as in
  `res[5]`): the date and the azimuth are wrong at the second order in the spin, everywhere.  The code only says "slow rotation
  approx."; the other four equations are right to the second order.
* **C85** `PatternDisk`: the copy constructor copies `2*nphi*nr` radii out of `nr`; at the first and at the last circle of a grid of
  radii (and below or above it when the limits of the disk were changed) elements outside of the arrays are read; beyond the last
  column the opacity is read after its end; at the azimuth of the last column an exception is thrown; with a repeated pattern, points
  before `phimin` read before the array; `getIndices` converts negative or huge numbers to `size_t` before the radius is compared with
  the limits (below one step inside the grid, or frequencies of 2^64 steps and more: hard X-rays with the default step of 1 Hz); when the
  pattern turns the column is searched for in the turned frame but interpolated in the fixed one; a step in radius is stale
  when the limits are changed with a grid of radii in place that is taken away later.
* **C86** `Disk3D`: changing the dimensions with `copyEmissquant` frees the velocities but not the opacity, which is then read beyond its
  end by the copy constructor; a pattern with `RepeatPhi` is not repeated (the index is taken modulo `nphi`, the period is
  `nphi-1` steps); `phimin` and `phimax` recompute the step without the repetition; with `zmin > 0` the points between the grid and
  its mirror image count as inside and their index is the conversion of a negative number to `size_t`.
* **C87** `Disk3D::Impact`: a segment of 0.1 or less is never met, even entirely inside; the first point found inside is skipped.
* **C88** `DirectionalDisk`: `getIndices` searches the frequencies downwards without end when the frequency is above the first one; the check
  on the band of the lamp prevents it only after `fitsRead`, because `copyGridFreq` does not update the limits.  `lampcutoffsinev()`
  returns hertz: a disk written to XML and read back has its cut-offs multiplied by 2.4e14.
* (read) The shift of `DirectionalDisk::emission` is that of a co-rotating disk whatever `CoRotating`/`CounterRotating`; inside of the
  radius of circular photon orbits it is not a number, the comparisons are false and the cut-offs have no effect.
* `DynamicalDisk`: between the last two dates the last file is used alone, so that the emission jumps at the last date but one (`emission_last_wrong`).
* `DynamicalDisk`: an exception in `PatternDiskBB::emission` or `getVelocity` leaves the arrays of the base pointing into the series, and the destructor frees them twice (`emission_throw_wrong`).
* `DynamicalDisk::file`: an exception in the reading leaves pointers that were never written, which the destructor and the next reading free (`file_throw_wrong`, `file_incomplete_wrong`).
* `DynamicalDisk`: the three arrays that `fitsRead` left in the base are lost at the first use (`used_leak_wrong`).
* `DynamicalDisk`: the copy constructor sets `nb_times_` to 0 and then tests it, so that no data is copied and the clone throws when used (`clone_wrong`); the copy of a disk that has just been read copies `2 * nphi_ * nr_` radii out of `nr_` (`clone_fresh_wrong`).
* (read) `DynamicalDisk`: `dirname_` is allocated by `new[]` and released by `delete`.
* `Functor::secant` tests whether the two values are equal only after the first division, so that two points with the same value give a
  division by zero where the documentation promises status 1; status 0 is also set when the two points have become close at a jump
  (`secant_equal_wrong`, `secant_jump_wrong`).  `ridders` does not check that it is given a bracket, and returns a NaN for `x²` between -1 and 1
  (`ridders_unbracketed_wrong`).
* `Spectrum::Generic::integrate` never ends for a negative integral, and returns 0 for a line between the first points
  (`integrate_negative_wrong`, `integrate_line_wrong`).
* `UniformSphere::operator()` takes `atan(y/x)` for the longitude of the star in the metric SchwarzschildHarmonic: a star at `x < 0` is moved towards the
  hole instead of away from it, and a photon at its centre is outside if the radius is below 2 (`harmonic_wrong`).  An isotropic, optically thin
  sphere adds the length of each step but absorbs according to its opacity, so that the image depends on the step (`isotropic_cut_wrong`).  (read)
  the documentation of `deltaMax` says `operator()` where the code takes its square root.
* `PowerLaw::cutoff(v, unit)` reads `v[0]` and `v[1]` before the length is checked, and ignores what follows (`cutoff_unit_short_wrong`,
  `cutoff_unit_long_wrong`).
* `BlackBody::colorCorrection` multiplies the temperature that is stored: setting it twice applies it twice, `temperature()` does not return what was set,
  setting the temperature later drops the correction but keeps the dilution, and a file written and read again applies it twice (`color_twice_wrong`,
  `color_readback_wrong`, `color_order_wrong`, `reload_wrong`).
* `Shift::clone` is the copy constructor that the compiler writes: the clone shares the sub-metric with the original and is not hooked to it. `mass(m)` of the
  clone changes the mass of the original and not its own (`clone_mass_wrong`).
* `Complex::append(NULL)` on an empty `Complex` metric throws after the null element is stored; no metric can be appended afterwards (`append_null_wrong`).
* (read) A `Shift` always says that its coordinates are Cartesian, also when those of its sub-metric are spherical. `~Complex` leaks the array of elements.
* `rMax()` of `Torus`, `FixedStar` and `Star` keeps the value of the first call: an object enlarged or moved later, or a star whose orbit is followed farther (the
  first photon calls `rMax()` when the orbit may be one point), is not looked for where it is (`torus_stale_wrong`, `fixed_stale_wrong`, `star_stale_wrong`).
* `Star::rMax` takes the largest of the signed Cartesian coordinates: for a star in the octant of the negative ones it is negative, and no photon ever hits it
  (`star_negative_wrong`).
* `PageThorneDisk` takes the marginally stable orbit of the matter that turns with the black hole as inner edge even if the spin is
  negative or the disk `CounterRotating`: with any negative spin the intensity is negative or NaN somewhere beyond the edge
  (`edge_retrograde_wrong`, `negative_spin_wrong`).
* `PageThorneDisk::emission` uses the intensity returned in SI units as if it were in cgs units: `sigma T^4` is a thousandth of the
  flux (`temperature_wrong`).
* `PageThorneDisk::bolometricEmission` scales by the mass and the accretion rate only if neither is 1 (`scale_wrong`).
* `PageThorneDisk::metric` unhooks before it tests: a refused metric leaves the old one in place but unheard (`PageThorne.refused_wrong`).
  The inner radius is set once and kept when the spin changes (`inner_radius_wrong`).
* `PageThorneDisk::processHitQuantities` with a spectrum and no parallel transport adds to the spectrum, then always throws
  (`spectrum_wrong`).
* `KonoplyaRezzollaZhidenko::drN2` (line 448) forgets the third asymptotic parameter: `christoffel` is not the connection unless that
  parameter is zero (`KRZ.connection_iff`, `connection_wrong`).
* `KonoplyaRezzollaZhidenko::circularVelocity` ignores `dir` (`retrograde_wrong`); off the equatorial plane it normalises at another
  position than the one given, and the vector returned is not a unit vector (`off_plane_wrong`).
* `KonoplyaRezzollaZhidenko`'s copy constructor copies the fourth power of the spin into the third: a clone with a negative spin
  refuses the parameters that its original accepts (`clone_wrong`).
* `KonoplyaRezzollaZhidenko::deltashorizon` stores a value before it refuses it (`refused_kept_wrong`); `spin` does not check the
  parameters set before (`spin_after_wrong`).
* `processHitQuantities`: with parallel transport the scalar transmission of the channels is updated only by `binspectrum`, and only
  when `spectrum` is not requested: the binned spectrum requested with the spectrum ignores absorption
  (`HitQ.bin_unabsorbed_wrong`).
* `processHitQuantities`: a Stokes parameter requested without `spectrum` and without parallel transport (switched off after the
  request, or requested through `Properties` directly) writes through the null pointer `data->spectrum`
  (`HitQ.null_spectrum_wrong`, `served_iff`).
* `Photon::getTransmissionMax` consults the channels as soon as there is a spectrometer, but they are updated only when a spectral
  quantity is requested: with a spectrometer in the scene and only `Redshift`, `EmissionTime`, `Intensity`… requested, rays go through
  opaque objects; the redshift and the date returned are those of the last surface met, hidden from the observer
  (`HitQ.hidden_redshift_wrong`, `opaque_stops_iff`). Same with parallel transport and only the binned spectrum.
* (read) the debugging output of the polarised branch reads `data->spectrum` without testing it (`lib/Astrobj.C:375`).
* `ThinDiskProfile::getVelocity` for a negative spin: `getRms` is even in the spin (the orbit that turns with the black hole), the orbits
  it then uses turn against it and do not exist that near: it throws, even for gas in radial fall (`Plunge.negative_spin`,
  `negative_spin_wrong`). `ThinDiskGridIntensity` and `SimBridge` return a vector that is not a unit vector, without a word
  (`Plunge.grid_negative_wrong`).
* (read) with Cartesian coordinates `ThinDiskProfile::getVelocity` takes `pos[1]` for the radius.
* `ThinDiskProfile::processHitQuantities` reads `data->impactcoords` exactly when `data` is null (`lib/ThinDiskProfile.C:478`), and
  `Complex::Impact` calls its elements with a null `data` first: undefined behaviour for such a disk in a complex object
  (`ProfileDisk.null_data_wrong`). When only the coordinates are requested it throws (`impact_refused_wrong`).
* `ThinDiskProfile` and `StochasticThinDisk` fill only the first requested quantity in the order user4, spectrum, redshift
  (`ProfileDisk.redshift_lost_wrong`, `spectrum_lost_wrong`); they never absorb (`never_absorbs`). (read) `nuem` leaks at each hit.
* `StochasticThinDisk::modalQuantities` is never called by the library: the object emits 64 everywhere, at every date, whatever its
  properties (`Stochastic.never_drawn`, `edge_wrong`). Once it is called, the emission can be negative (`emission_positive_wrong`).
* `StochasticThinDisk::motionKind("Static")` throws, after having set it: the default motion cannot be read back from a file
  (`Stochastic.static_wrong`, `static_throws`).
* `FreeStar`: the velocity is normalised again at each date with constant `dr/dt`, `dθ/dt`, `dφ/dt`: a star that spirals outward becomes faster
  than light and gets a zero four-velocity (`Moving.free_unit_wrong`). `initVelocity()` returns `u^i` though the setter takes `u^i/u^t`
  (`free_getter_wrong`). A velocity that is refused has been stored (`free_refused_wrong`). After `initCoord` every velocity is refused
  (`free_initCoord_wrong`). `xprime`... are zero on a circle: the code leaves out the terms in `dθ` and `dφ` (`free_derivatives_wrong`). With Cartesian
  coordinates the numbers are read as spherical ones (`free_cartesian_wrong`).
* `Blob`: a velocity faster than light is accepted (`Moving.blob_fast_wrong`); the position is checked against the kind of motion of that moment only
  (`blob_start_wrong`); a blob on a cone off the equator cannot be read from the file it was written to, because `Init4Coord` comes before
  `BlobMotionType` (`blob_read_wrong`); the derivatives read an array never written (`blob_derivatives_wrong`).
* `Plasmoid`: neither the motion nor the way the radius varies are properties: a plasmoid from a file can never be drawn
  (`Moving.plasmoid_unset_wrong`). In the helical motion the path has `r² dφ/dt` constant while the velocity has `dφ/dt` constant
  (`plasmoid_helical_wrong`). `RadiusMax` does not limit the radius (`plasmoid_radius_wrong`), the radius set is ignored
  (`plasmoid_set_radius_wrong`), and maxima down to 0.2 are taken though the radius starts at 0.4 (`plasmoid_radiusMax`). (read) `radiativeQ` leaks its
  two arrays and writes on the standard output; the destructors of the three classes leak their arrays.
* `InflateStar`: without any setting the radius is `DBL_MAX` from the date 0 on (`Moving.inflate_fresh_wrong`); dates exchanged make it jump
  (`inflate_jump_wrong`); in a step the radius is that of the first end (`inflate_stale_wrong`). (read) `deltaMax` and `rMax` use the initial radius;
  the opacity is not diluted.
* (proved, C108) `ThermalSynchrotron`: `jVnuCGS` does not vanish with the frequency as `jnuCGS` does, so below some frequency |V| > I. Averaging over the directions calls `angle_B_pem(theta)` on the object itself and leaves π − 0.01 there. `operator()(nu, op, ds)` is `j ds exp(-α ds)`, which vanishes where it should tend to Planck's law. The angle of a new object is 0, where everything is NaN, even for a density of 0.
* (proved, C109) `PowerLawSynchrotron`: `gamma_min^2 < nu/nu0` is in the comment but not in the code. `alphaQnuCGS` is NaN for 1 < p < 1.0118. `gamma_min > 100` throws in the polarised `radiativeQ` only. The default `PLindex` 0 makes the emission negative. With p = 3, θ = 30° and nu = nu0, V > I.
* (read) `PowerLawSynchrotron::alphaVnuCGS` calls `abs` without `std::`: if only the integer function is visible the sign of the cosine becomes a division by zero.
* (proved, C110) `ThermalBremsstrahlung`: the two forms of the Gaunt factor differ by a factor of two where they should meet, at h nu = k T; the two forms of `Fei` by 2 % at k T = m c². (read) The constant `cst_` and the member `Tm05_` are computed and never used.
* (proved, C111) The test `Inu[ii]==Inu[ii]+1.` meant for infinities is true of every number from 2^53 on: bright but finite intensities are refused. A negative absorption coefficient is accepted and gives a transmission above one.
* (proved, C112) `SphericalAccretion::getVelocity` uses components 1 and 3 as r and φ whatever the kind of coordinates, although `operator()` and `radiativeQ` accept Cartesian ones: on the y axis the gas moves along x, and beyond some 200 units of length the test of the norm does not see it. σ = 0 makes `radiativeQ` divide by a zero frequency. The header says T ∝ z^slope (the code: r^-slope), density ∝ r^-2 (the code: any slope), σ = P_magn/(n m_p c²) (the code: twice that). (read) `spectrumThermalSynch_` is shared state: `radiativeQ` is `const` and sets it; the results were proved not to depend on it.
* (proved, C113) `StarTrace::TMin(t)` and `TMax(t)` exchange the dates when they come out of order. A new object has 0 and 0, `TMin` is written first, so a file with 0 < TMin is read back as a trace from 0; the example in the header (600, 600) gives 0 to 600. `Worldline::tell` is not overridden: a Minkowski metric that goes from Cartesian to spherical coordinates leaves the cached places stale. The property's text promises all places between the dates, the header only those computed. (read) The constructor with a metric leaves `tmin_` and `tmax_` unset; `xAllocate(size_t)` leaks the cache; the return of `xExpand` comes before its debug output.
* (proved, C114) `KappaDistributionSynchrotron`: the fits of circular polarisation go as 1/Θ, and `thetae` accepts all Θ ≥ 0.005, so V can be more than 20 I where the polarised `radiativeQ` answers. `switch(int(kappaindex_*10))` accepts 3.59 as 3.5 though the message says otherwise. One frequency below 0.1 `nuk` makes the polarised call throw for all (only the rotation needs the bound). A new object has index 0 and gives NaN.
* (C115) `EquatorialHotSpot::getVelocity` returns the velocity of the centre wherever the hit is. Off the circle of the centre it is not a unit vector, the redshift is wrong, and with `NormalBeaming` or `RadialBeaming` photons that are nearly normal to the plane make `emission` throw "cosalpha>1!" (`off_circle_wrong`). `emission` takes `x` and `z` for a radius and an angle when the metric is in Cartesian coordinates (`cartesian_wrong`). `BeamAngle` has no effect; a spot has no size by default and does not shine.
* (C116) The loop shared by seven polarised `radiativeQ` replaces the transmission matrix by the identity when the emission of the cell is not positive: matter which
  absorbs and does not emit is transparent (`StokesStep.dark_wrong`).
* (C116) With no polarised coefficients `Omatrix` is the identity (C46) while `Pmatrix` is exact: the cells emit and do not absorb, and the intensity received grows without
  bound with the number of cells (`StokesStep.grey_wrong`).
* (C116) The formula of `Pmatrix` for thin cells can give light more polarised than bright when the emission is completely polarised (`StokesStep.thin_wrong`).
* (C117, `toroidal_tilted_wrong`, `toroidal_wrong`) `lib/EquatorialHotSpot.C:296-313`: the time component of the toroidal field is
  `-g_φφ u^φ/(g_tt u^t)`, without the terms in `g_tφ`. The field is not orthogonal to the velocity around a rotating hole; the projection made
  later hides it for the angle, but the vector is normalised before, and on the free orbit at 2.25 from a hole of spin 0.95 it is timelike: the
  square root is a NaN, which `getChi` reports as an error.
* (C117, `along_throws`) light along the magnetic field makes `getChi` throw, though the emission there is zero: the image stops.
* (C118, `base_cone_wrong`) `lib/Jet.C:266`, `:637`: the cylindrical radius of the base of a conical jet is taken as
  `JetInnerRadius*tan(angle)`, but the base is at the spherical radius `JetInnerRadius` (as the comment for parabolic jets says, and as
  `operator()` tests): the density at the base is that given divided by the squared cosine of the outer angle.
* (C118, `unset_wrong`, `unset_angles_wrong`) a parabola that is not given keeps the value -1: the distance is a NaN, nothing is seen and
  nothing is said; with both angles not given the jet has no point.
* (C118, `wide_wrong`) an outer angle beyond 90 degrees is accepted, and the jet becomes the funnel inside the inner cone.
* (C118, `refused_kept_wrong`, `change_order_wrong`) `lib/Jet.C:75-113`: the member is changed before the error is thrown.
* (C119, `leaves_wall_wrong`, `kerr_leaves_wrong`) `lib/Jet.C:507-542`: the velocity is tangent to the sheath in the orthonormal frame, but the
  sheath is defined in the coordinates: `g_θθ/g_rr` is `r²-2r+a²` and not `r²`, and the gas of the inner wall flows out of the sheath.
* (C119, `inflow_ratio_wrong`) `lib/Jet.C:569-578`: for inflow the radial speed is reversed and the azimuthal one is not.
* (C119, `negative_wrong`, `cartesian_wrong`) `GammaJet` is not checked (below -1 the gas goes to the past); `getVelocity` takes the first two
  coordinates for a radius and a colatitude in Cartesian coordinates too, and the test of the norm accepts the result in flat space.
* (C120, `polarised_wrong`) `lib/Jet.C:324` and `:692`: the exponent of the parabolic part of the combined field is 1 without polarisation and
  0.75 with it.
* `DeformedTorus`: `operator()` applies the deformation to the present place of the gas, `getVelocity` takes it as the map from the initial to the
  present place. So for all seven kinds the gas moves opposite to the surface (C121 `opposite_wrong`, `new_moves_wrong`).
* `DeformedTorus::getVelocity` takes `u_t^2` as if `dr/dt` and `dθ/dt` were covariant quotients: the four-velocity is not a unit vector wherever the
  deformation moves the gas (C122 `norm_wrong`, `new_norm_wrong`).
* `DeformedTorus`: a centre inside the last stable orbit is accepted and puts the whole equatorial plane inside; a refused `Beta` is kept, zero is
  accepted (C121 `unstable_wrong`, `beta_wrong`).
* `OscilTorus::largeRadius(v, unit)` sets the radius without `updateCachedValues()` (the macro `GYOTO_PROPERTY_ACCESSORS_GEOMETRICAL_SPECIAL` runs the
  code given only in the version without a unit): the surface mixes the new radius with the epicyclic frequencies of the old one (C124 `unit_wrong`).
* `OscilTorus`: a radius inside the last stable orbit is refused after `c_`, `omr2_`, `lc_` and others are changed; the torus then has the new radius with
  the old pulsation, and contains the whole equatorial plane (C124 `refused_wrong`). A negative polytropic index is accepted (C123 `index_wrong`).
* `OscilTorus`: the perturbation of the surface lacks the factor `√(2/(n+1))` of the velocity: for an index other than 1 the gas does not move with the
  surface, even at first order in the intensity (C125 `surface_wrong`).
* `OscilTorus::emission` divides by `tt_[ii-1]-tt_[ii]`: the area goes away from the next one, and may be negative (an error) though all the areas are
  positive; the last interval is not interpolated; dates before zero are not reduced to the period (C126).
* `OscilTorus::emittingArea` reads the last line twice if the file ends with a line feed, reads an uninitialised variable if the file is empty, and stops at
  a zero area; the copy constructor leaves out `emitting_area_` (C126).
* `ThickDisk::veloParam` raises its error after the values are stored: a refused `alpha` of 2 makes the gas flow outwards (`refused_wrong`).
* `ThickDisk::getVelocity` takes `pos[1]` and `pos[2]` for `r` and `theta` in Cartesian coordinates too, though `radiativeQ` makes the distinction
  (`cartesian_wrong`, `cartesian_throws`).
* `ThickDisk`: the magnetic pressure over `n m_p c^2` is half of `Magnetization`, which the header calls this quotient (`magnetization_wrong`).
* `ThickDisk`: below the inner radius the density is set to zero in the polarised `radiativeQ` only; the other prints a warning and goes on
  (`inner_wrong`). The polarised one does not look at `UseSelfAbsorption` (`polarised_absorption_wrong`).
* `FlaredDiskSynchrotron::timeTranslation_inMunit` replaces the former translation in `tmin` and `tmax` and adds the new one to the dates: after two
  translations they are apart, and interpolation throws shortly after `tmin` (`Flared.translation_wrong`). Reading a file after a translation, even a
  refused one, moves the limits and not the dates (`Flared.reread_wrong`).
* The number of dates in a file is compared with itself: too many dates overflow the array, too few are filled up with zeros (`Flared.dates_wrong`).
* A file without a field leaves the field of the file before in use, whatever its size; a field that was taken away is still read, through a null
  pointer (`Flared.stale_field_wrong`, `Flared.null_field_wrong`).
* `copyDensity` does not compute the steps of the grid: every interpolation throws (`Flared.spacing_wrong`).
* The constructor stores 5/3 where the polytropic index less one belongs (`Flared.default_index_wrong`).
* `FlaredDiskSynchrotron::radiativeQ` takes the root of the sum of squares of the coordinate components for the length of the field
  (`Flared.field_norm_wrong`), and in Cartesian coordinates the height for the azimuth (`Flared.cartesian_wrong`).
* `PolishDoughnut::angmomrinner` with a vector of the wrong size is refused after the description in force was changed: the torus no longer fills its lobe
  and does not follow the metric (`Doughnut.refused_rinner_wrong`). `lambda` above 0.99 is refused after it was used (`Doughnut.refused_lambda_wrong`).
* `ChangeCusp` set after `Lambda` does nothing until the metric or the parameter is set again (`Doughnut.cusp_late_wrong`).
* An inner radius from which no centre is found is accepted: the test `r_centre_ < rmin or r_centre_ > rmax` is false for a NaN
  (`Doughnut.no_centre_wrong`). An element `ADAF` without content is ignored (`Doughnut.adaf_element_wrong`).
* With a negative spin `KerrBL::getRms` is below `KerrBL::getRmb`, and the doughnut has an angular momentum above that of the smallest bound orbit
  (`Doughnut.negative_spin_wrong`).
* `PolishDoughnut`: the gap of the potential is not set by the constructor and is used by `radiativeQ` before `Lambda` or `AngMomRinner` is given
  (`Doughnut.unset_gap_wrong`). With the default `Beta` of 0 the gas is not a number and the torus is dark and transparent without a word, though `Impact`
  refuses `Beta` 1 (`Doughnut.default_beta_wrong`). With a negative `deltaPL` the coefficients of the power law are computed and left out
  (`Doughnut.negative_fraction_wrong`). An oversampling of 0 writes outside of the arrays (`Doughnut.no_parts_wrong`).
* `Kerr2PN` is flat space whatever its spin and quadrupole (`Kerr2PN.flat_wrong`). Tying the quadrupole again does not set it and a refused one is kept
  (`Kerr2PN.tied_wrong`). Written to a file and read, a negative spin comes back positive (`Kerr2PN.reload_sign_wrong`) and a free quadrupole replaces the spin or is
  refused, as `KerrQuadrupole` is written last (`Kerr2PN.reload_free_wrong`).
* `ThinDiskIronLine::LineFreq(v, unit)` converts to hertz and then multiplies by the hertz of one keV (`DiskLaws.line_unit_wrong`, `DiskLaws.line_two_ways_wrong`); the
  getter with the same unit hides it. `ThinDiskPL` with a slope and the default inner radius of 0 has no temperature (`DiskLaws.pl_default_wrong`).
  `DynamicalDiskBolometric` adds to `User4` before refusing a spectrum (`DiskLaws.bolometric_refused_wrong`).
* `NumericalMetricLorene`: the search of the date, `while(tt<times_[it] && it>=0)`, reads `times_[-1]` for a date before the first one
  (`Lorene.before_first_date_wrong`). `gmunu_up` and `gmunu_di` do not return in the three special cases and go on to an error, or, with one slice, to
  reading outside of the table (`Lorene.single_slice_wrong`, `Lorene.fall_wrong`). `gmunu_up` uses the covariant spatial metric for the contravariant one
  (`Lorene.gmunu_up_wrong`); `gmunu_di` has a wrong derivative of `g_tt` (`Lorene.gmunu_di_wrong`); the `christoffel` of one component has wrong indices and
  divides the shift by `r sin θ` twice (`Lorene.christoffel1_wrong`). `diff31` moves everything in the slice of date zero (`Lorene.diff31_wrong`), and
  between dates lapse and metric are interpolated apart (`Lorene.lapse_wrong`).
* `NumericalMetricLorene`: the setters of `HasSurface`, `HasAccelerationVector`, `SpecifyMarginalOrbits` and `MapEt` store the value before they
  refuse it once a file was read (`LoreneSettings.late_wrong`); `jacobian` never fills its row of the time.
* `NumericalMetricLorene::circularVelocity` ignores the direction (`Lorene.direction_wrong`), yields NaN without an error where orbits would be faster than
  light, since the test of the norm does not fail for a NaN (`Lorene.superluminal_wrong`), and with several slices tests the velocity of one slice against the
  interpolated metric, which refuses all of them (`Lorene.circular_dates_wrong`).
* C140 `NeutronStarModelAtmosphere::fitsRead` stores the new dimensions and array before it finds that another extension is missing: after the exception the
  sizes are out of step, and a copy of the star or its emission reads beyond the arrays (`Atmosphere.refused_wrong`).
* C140 The copy constructor of `NeutronStarModelAtmosphere` does not copy the name of the file: a copy is written without it (`Atmosphere.name_wrong`).
* C141 Above the highest frequency of the table the search of `NeutronStarModelAtmosphere` runs out of the array before the test that would return 0
  (`Atmosphere.freq_wrong`).
* C141 The header documents the intensities as `double[nsg_][ni_][nnu_]`, the frequency fastest; the function reads them with the gravity fastest
  (`Atmosphere.layout_wrong`).
* C142 `DynamicalDisk3D`: between the last two dates the last file is used alone (`DynDisk3D.dated_last_wrong`); the velocities are interpolated component by
  component and are not unit vectors between the dates (`velocity_wrong`); inside the last stable orbit, where nothing is emitted, and beyond the outer radius, a
  transparent disk stops all light (`opaque_wrong`); light is not absorbed in the step that emits it (`split_wrong`).
* C142 `DynamicalDisk3D` counts one file before any is read: emission, and the name of the directory as asked for when the object is written, read null
  pointers (`unset_wrong`). After use the base points into the series, and `copyEmissquant` frees that row (`freed_wrong`).
* C143 `SimBridge`: `emissionType("BB")` is read back as `BlackBody`, which is refused (`SimBridge.emission_wrong`); at the first date the file -1 is asked for
  (`date_first_wrong`); the status of CFITSIO is not reset, so that no table is seen after an absent one, nor any without `NB_FREQ` (`flags_wrong`); `temperature_` is never set
  back to true (`mode_wrong`); tables of coefficients are read with a size that leaves out the frequencies (`table_refused_wrong`, `table_short_wrong`). `SimThickDisk` takes the smallest colatitude, an angle, for the ratio of the
  height to the radius (`hover_wrong`, `hover_axis_wrong`). (read) The arrays of the coordinates leak when a second file is given, and the array of velocities at every call.
* C144 `RotStar3_1`: the 3+1 integration ignores the largest step asked for (`RotStar.asked_wrong`) and gives `deltaMax` an array that begins with the radius, so that
  the limit relative to the radius is relative to the colatitude (`radius_wrong`). (read) Any star is taken to be inside the radius 2.5.
* `Minkowski::diff` with `Keplerian` in spherical coordinates (`lib/Minkowski.C:362-367`) divides by `r² |sin θ|` where the derivative of
  `acos(z/r)` past a pole has `r² sin θ`: for a colatitude outside [0, π], as inside a step that crosses the axis, `d²θ/dτ²` has the wrong
  sign (`MinkowskiKepler.pole_wrong`).
* `Minkowski::observerTetrad` for a Keplerian observer computes a frame, then calls `Generic::observerTetrad` with the same kind, which
  asks for `circularVelocity` and throws unless `Keplerian` is set; when it is set the frame just computed is replaced
  (`MinkowskiKepler.observer_wrong`).
* `XillverReflection::emission` for an azimuth from the lamp below the first one of the table: `getIndicesIllum` adds a turn to its own copy,
  `emission` then takes the last interval with the azimuth without the turn, and extrapolates (`lib/XillverReflection.C:790`, `:873-894`):
  the illumination can be negative (`Xillver.gap_wrong`).  An azimuth of exactly zero or equal to the first one throws (`Xillver.edge_wrong`).
* `XillverReflection::timelampphizero` keeps the sign of a negative date (`fmod`), and `emission` throws "bad dphi" at some dates
  (`Xillver.zero_negative_wrong`); with the members of the constructor the period is zero and a negative date never ends
  (`Xillver.stuck_wrong`).
* `XillverReflection::metric` removes the hook of the present metric before it refuses a new one, and the copy constructor sets no hook: the
  spin is then not followed (`Xillver.refused_wrong`, `Xillver.clone_wrong`).
* (read) `XillverReflection::averageOverAngle` is stored and never used.
* (read) `illumination_` is filled by FITS with the radius fastest (`naxesI[0]`, `lib/XillverReflection.C:437-445`) and read with the azimuth
  fastest (`:887-890`).
* `XillverReflection::emission` reads `reflection_` with the frequency slowest, the header and FITS have it fastest
  (`include/GyotoXillverReflection.h:56-61`, `lib/XillverReflection.C:960-983`; `XillverRefl.layout_wrong`).  An angle or an ionization equal to
  the first of the table passes the check of bounds and throws (`XillverRefl.angle_wrong`, `XillverRefl.ionization_wrong`).
* `Worldline::checkBasis(coord)` corrects `Ephi` and `Etheta` in local arrays, checks these and returns; `coord[8]` to `coord[15]` never change
  (`lib/Worldline.C:1640-1715`; `PolarBasis.uncorrected_wrong`, `PolarBasis.kept`).  The photon is tested with `norm>normtol_` without absolute
  value: a timelike one is kept (`:1654`; `PolarBasis.timelike_wrong`).
* `reorthonormalizeBasis` writes `Etheta` where it read `Ephi` and `Ephi` where it read `Etheta` (`lib/WorldlineIntegState.C:462-463`, `:482-485`):
  each correction exchanges the two vectors (`PolarBasis.swap_wrong`).
* Both project on the photon with `projectFourVect`, which divides by its norm: for an exactly null photon there is no correction
  (`PolarBasis.null_wrong`).
* (read) `computeB4vect_ipole` in Cartesian coordinates takes the velocity and gives the field in those of Boyer and Lindquist
  (`lib/Astrobj.C:1481-1487`, `:1608-1612`); no caller goes there.
* The copy constructor of `NumericalMetricLorene` builds its base with `Generic(coordkind, name)` (`lib/NumericalMetricLorene.C:106`): the mass, the
  steps and `Keplerian` of the copy are the default ones, also in the copies of photons (`lib/Worldline.C:92`; `LoreneSettings.clone_wrong`).
* (read) `~Disk3D` leaks the opacity.
* (read, not modelled) `ChernSimons` inherits `computeNBeta`, `diff31`, `getRms` and `getRmb` from `KerrBL`: the 3+1 integration
  and these radii are those of Kerr, without the Chern-Simons term.
* (read) `KerrBL::myrk4_adaptive` uses an uninitialised result when the correction of the constants fails, and one of its error
  codes is overwritten before it is returned.
* (read) Setting a negative coefficient of the Rezzolla-Zhidenko metric throws after having stored it; changing the charge of the
  Reissner-Nordström metric or the coupling of the Chern-Simons metric does not tell the listeners; a spin above 1 gives a horizon
  radius that is not a number.
* (read) `christoffel` by coefficient ignores the return code of the matrix version.
* (read) `pthread_create` reports errors with positive values; the code tests for negative ones.
* (read) `requestedQuantitiesString` modifies its caller's constant string.
* (read) `Register::init` lists "built-in" twice; `loadPlugin` does not restore the plug-in name when initialisation throws.
* (read) `Complex` and `Photon` destructors leak an array; the copy constructor of `Worldline` does not listen to the cloned metric.
* (read) `Photon::hit` reads `data` when the number of equatorial crossings is limited even if no data was given.
