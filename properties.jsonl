{"id": "C01", "title": "Reference counting destroys an object exactly when its last owner goes away", "statement": "After any sequence of creations, copies, assignments and destructions of owning handles, every object still owned by at least one handle is alive, every object that had owners and lost all of them has been destroyed exactly once, the reported reference count of a live object equals its number of owners, and no operation touches a destroyed object.", "quantifier": "for every finite history of handle operations over any number of objects and handles, including objects that themselves hold handles (chains, sharing)", "why_tests_cant": "The number of aliasing patterns is unbounded; a test only exercises a handful of histories and use-after-free usually goes unnoticed.", "anchors": ["include/GyotoSmartPointer.h: SmartPointer::SmartPointer, operator=, decRef, ~SmartPointer", "lib/SmartPointer.C: SmartPointee::incRefCount, decRefCount, operator="]}
{"id": "C02", "title": "Change notifications reach exactly the currently registered listeners", "statement": "After any history of registrations and removals, one notification calls each listener exactly as many times as it has registered since it was last removed, most recent registration first, and removing a listener does not affect the others.", "quantifier": "for every history of hook / unhook / notify calls and every set of listeners", "why_tests_cant": "Histories are unbounded and duplicates / removals at the head or tail of the chain are easy to miss.", "anchors": ["lib/Hooks.C: Teller::hook, unhook, tellListeners", "include/GyotoHooks.h"]}
{"id": "C03", "title": "A worldline's storage is always well formed and growing it never loses a point", "statement": "After any history of setting the initial condition, integrating forward or backward, growing and resetting, the valid index range is inside the allocated arrays and contains the initial point, no read or write falls outside the arrays, and every point computed before an enlargement is still there in the same order.", "quantifier": "for every history of operations, both directions, every initial size of at least two elements and every number of steps", "why_tests_cant": "The arrays start with 1024 elements and double; boundary conditions are hit only at particular step counts and directions.", "anchors": ["lib/Worldline.C: xAllocate, xExpand, setInitCoord, xFill, reset, reInit", "lib/Photon.C: Photon::hit"]}
{"id": "C04", "title": "Looking up a date brackets it with two consecutive computed points", "statement": "For a worldline whose stored dates increase, asking for any list of dates within the computed range selects for each of them two consecutive stored points that bracket the date (or the exact stored point), whatever the order of the requested dates, and interpolated dates are the requested ones.", "quantifier": "for every increasing sequence of stored dates of any length and every list of requested dates in range, in any order", "why_tests_cant": "The search keeps its bracket between successive dates, so the result for one date depends on the previous ones; only finitely many lists can be tried.", "anchors": ["lib/Worldline.C: Worldline::getCoord(double const * const dates, size_t n_dates, ...)"]}
{"id": "C05", "title": "Normalising angles keeps the same direction and lands in the canonical range", "statement": "Normalising a point in spherical coordinates yields a colatitude between 0 and pi and a longitude between 0 and 2 pi which designate the same spatial point, and reverses the colatitude velocity exactly when the colatitude was reflected.", "quantifier": "for every real colatitude and longitude", "why_tests_cant": "The domain is the whole real plane; failures sit on measure-zero boundaries.", "anchors": ["lib/Worldline.C: Worldline::checkPhiTheta"]}
{"id": "C06", "title": "A rectangular selection of pixels visits every pixel once, in row order", "statement": "Iterating over the grid built from two ranges visits exactly the pixels (i,j) with i in the first and j in the second range, each once, first coordinate fastest, and the advertised size equals the number of visited pixels.", "quantifier": "for all ranges with positive step and non-empty extent", "why_tests_cant": "Off-by-one errors depend on the divisibility of the extent by the step; the space of ranges is unbounded.", "anchors": ["lib/Screen.C: Screen::Range, Screen::Grid", "include/GyotoScreen.h: Screen::Coord1dSet, Coord2dSet"]}
{"id": "C07", "title": "A multi-threaded image does not depend on the schedule", "statement": "For every number of worker threads and every interleaving of their critical sections and computations, each requested pixel is ray-traced exactly once, its result goes to the cell belonging to this pixel, no two workers ever write to the same cell, and the final image equals the one computed by a single thread.", "quantifier": "for every number of threads, every list of pixels and every interleaving", "why_tests_cant": "Schedules are not under the control of a test; races show up rarely.", "anchors": ["lib/Scenery.C: SceneryThreadWorker, Scenery::rayTrace"]}
{"id": "C08", "title": "A distributed image does not depend on which worker answers first", "statement": "For every number of worker processes and every order of answers, the manager hands every pixel to exactly one worker, stores each answer in the cell of the pixel it was computed for, stops every worker exactly once and returns only when all answers are in.", "quantifier": "for every number of workers, every number of pixels (including fewer pixels than workers) and every order of answers", "why_tests_cant": "Message arrival order is nondeterministic; a test sees only the orders the network produces.", "anchors": ["lib/Scenery.C: Scenery::rayTrace (HAVE_MPI branch), Scenery::mpiTask"]}
{"id": "C09", "title": "Results sent by a worker process do not overlap in the message", "statement": "In the message carrying one pixel's result, each requested quantity occupies its own block: two distinct quantities never share a slot, and all slots are inside the message.", "quantifier": "for every set of requested quantities and every number of spectral channels", "why_tests_cant": "Overlap appears only for particular combinations of quantities with particular numbers of channels.", "anchors": ["lib/Scenery.C: Scenery::rayTrace (Quantity_t / vect layout), lib/Scenery.C: Scenery::mpiTask", "lib/Scenery.C: getScalarQuantitiesCount, getSpectralQuantitiesCount"]}
{"id": "C10", "title": "The list of requested quantities survives a print / parse round trip", "statement": "Printing the set of requested quantities and parsing the printed text gives back the same set, for every set of known quantities; unknown names are rejected.", "quantifier": "for all 2^17 sets of quantities and every token", "why_tests_cant": "The set of combinations is large and the text form goes through tokenising and optional units.", "anchors": ["lib/Scenery.C: Scenery::requestedQuantitiesString (get and set)", "include/GyotoDefs.h: GYOTO_QUANTITY_*"]}
{"id": "C11", "title": "Result pointers advance together and initialise exactly one cell", "statement": "Moving the result set by n and then by m is the same as moving it by n+m, quantities that are not requested stay not requested, the set of requested quantities is unchanged, and initialising writes the documented neutral values in the slots of the current cell only.", "quantifier": "for every set of requested quantities, every offset and number of channels", "why_tests_cant": "A forgotten member in one of seventeen parallel updates only shows for that quantity.", "anchors": ["lib/Astrobj.C: Properties::operator+=, operator++, init, operator Quantity_t"]}
{"id": "C12", "title": "Looking up a property finds the most derived definition", "statement": "Looking up a property by name returns the first definition met when walking from the most derived class to its ancestors, matches either the positive or the negative name of a boolean property, and fails exactly when no class in the chain declares the name.", "quantifier": "for every chain of property tables and every name", "why_tests_cant": "Depends on how tables are chained by user classes.", "anchors": ["lib/Object.C: Object::property, get, set", "lib/Property.C", "include/GyotoProperty.h"]}
{"id": "C13", "title": "Setting a property then reading it back gives the value that was set", "statement": "For every declared property and every value of its type, setting it by name and then reading it by the same name gives the same value; setting a boolean through its negative name and reading it through its positive name gives the opposite value; other properties are unchanged; a wrong type or a unit on a unit-less property is refused without any change.", "quantifier": "for every object layout, every property, every value and every unit", "why_tests_cant": "Names, types and values form an unbounded product.", "anchors": ["lib/Object.C: Object::set, Object::get, setParameter", "lib/Value.C"]}
{"id": "C14", "title": "Integer parameters survive being written to and read from XML", "statement": "Writing an integer parameter and reading the text back gives the same integer, for every representable signed or unsigned value, alone or in a vector.", "quantifier": "for every 64-bit signed and unsigned integer and every vector of them", "why_tests_cant": "2^64 values.", "anchors": ["lib/Factory.C: FactoryMessenger::setParameter(string, long/unsigned long/vector...), parseArrayULong", "lib/Object.C: Object::setParameter"]}
{"id": "C15", "title": "A saved scene is read back with a single shared metric, screen and object", "statement": "While writing a scene, the metric (respectively the astronomical object, the screen) is written exactly once however many components refer to it, and referring to a different one is refused.", "quantifier": "for every sequence of references made by the components being saved", "why_tests_cant": "The sequence of references depends on the user's scene graph.", "anchors": ["lib/Factory.C: Factory::metric, astrobj, screen"]}
{"id": "C16", "title": "Relative file names in a scene are resolved against the scene's directory", "statement": "An absolute name is used unchanged; a name prefixed by the working-directory marker is resolved against the process working directory; any other name is resolved against the directory of the scene file, and the result is absolute.", "quantifier": "for every file name, scene path and working directory", "why_tests_cant": "String cases are unbounded.", "anchors": ["lib/Factory.C: Factory::fullPath"]}
{"id": "C17", "title": "The register of kinds returns the most recently registered match", "statement": "Looking up a kind returns the most recently registered constructor with this name, restricted to the requested plug-in if one is given, and reports the plug-in it comes from; with no match it fails, or returns nothing if failure is tolerated.", "quantifier": "for every history of registrations and every query", "why_tests_cant": "Depends on the order of plug-in loading.", "anchors": ["lib/Register.C: Register::Entry::getSubcontractor", "include/GyotoRegister.h: GYOTO_GETSUBCONTRACTOR"]}
{"id": "C18", "title": "Splitting text yields exactly the maximal delimiter-free pieces", "statement": "Splitting a text on a set of delimiters returns pieces which contain no delimiter; concatenating the pieces gives the text without its delimiters; joining non-empty delimiter-free words with delimiters and splitting gives back the words.", "quantifier": "for every text and every delimiter set", "why_tests_cant": "Strings are unbounded.", "anchors": ["lib/Utils.C: Gyoto::split"]}
{"id": "C19", "title": "Leaving debug mode restores the previous verbosity", "statement": "After any sequence of entering and leaving debug mode, leaving it restores the verbosity selected before entering it.", "quantifier": "for every history of debug / verbose calls", "why_tests_cant": "The defect appears only for particular histories.", "anchors": ["lib/Utils.C: Gyoto::debug, Gyoto::verbose"]}
{"id": "C20", "title": "The generic 4x4 matrix inversion returns the inverse", "statement": "For every invertible matrix on which the elimination meets no zero pivot, the product of the matrix and the result is the identity.", "quantifier": "for every such real matrix", "why_tests_cant": "A 16-dimensional continuum; typical metrics are nearly diagonal and hide errors in the off-diagonal paths.", "anchors": ["lib/Utils.C: Gyoto::matrix4Invert"]}
{"id": "C21", "title": "The block-circular 4x4 matrix inversion returns the inverse", "statement": "For every symmetric matrix that couples only the first and last coordinates and is invertible with non-zero leading coefficient, the product of the matrix and the result is the identity.", "quantifier": "for every such real matrix", "why_tests_cant": "Continuum of inputs.", "anchors": ["lib/Utils.C: Gyoto::matrix4CircularInvert"]}
{"id": "C22", "title": "Completing a tangent vector makes it null", "statement": "Given a metric with non-zero time-time coefficient and a spatial velocity for which a real solution exists, the completed four-vector has zero norm and keeps its spatial part; the other returned root also has zero norm; with negative time-time coefficient the chosen root is the larger one.", "quantifier": "for every metric tensor and spatial velocity", "why_tests_cant": "Continuum of inputs.", "anchors": ["lib/Metric.C: Metric::Generic::nullifyCoord"]}
{"id": "C23", "title": "Normalising a four-velocity makes it a unit timelike vector along the same direction", "statement": "For a four-vector whose coordinate velocity is slower than light, normalisation returns a vector of norm -1, future directed, proportional to the input; otherwise the returned time component is zero.", "quantifier": "for every metric tensor and every four-vector with non-zero time component", "why_tests_cant": "Continuum of inputs.", "anchors": ["lib/Metric.C: SysPrimeToTdot, normalizeFourVel"]}
{"id": "C24", "title": "Projecting and orthonormalising four-vectors", "statement": "Projecting a vector orthogonally to a non-null vector gives a vector orthogonal to it and projecting twice changes nothing; the orthonormalisation procedure, whenever none of its intermediate vectors is null, returns four mutually orthogonal vectors with norm plus or minus one.", "quantifier": "for every symmetric metric tensor and all vectors", "why_tests_cant": "Continuum of inputs.", "anchors": ["lib/Metric.C: ScalarProd, norm, projectFourVect, GramSchmidt"]}
{"id": "C25", "title": "Connection coefficients are symmetric and compatible with the metric", "statement": "The connection coefficients derived from a metric and its derivatives are symmetric in their lower indices and make the covariant derivative of the metric vanish, so that the equations of motion conserve every scalar product between the tangent vector and transported vectors.", "quantifier": "for every symmetric metric with its inverse and every symmetric derivative", "why_tests_cant": "Continuum of inputs.", "anchors": ["lib/Metric.C: Generic::christoffel, Generic::diff"]}
{"id": "C26", "title": "Default metric methods terminate and use what the user provided", "statement": "Whichever subset of the inverse-metric, derivative and connection methods a metric implements, and whatever has been called before, each default method terminates and its result comes from the user's implementation when there is one, else from numerically inverting or differentiating the covariant metric.", "quantifier": "for every subset of implemented methods and every history of calls", "why_tests_cant": "The defaults call one another and remember what they discovered; the order of calls matters.", "anchors": ["lib/Metric.C: gmunu_up, gmunu_up_and_jacobian, jacobian, christoffel"]}
{"id": "C27", "title": "Default emission methods terminate and use what the user provided", "statement": "Whichever subset of the emission, transmission and radiative-transfer methods an object implements, and whatever has been called before, each default method terminates and returns the user's result when there is one, else the documented uniform fall-back.", "quantifier": "for every subset of implemented methods and every history of calls", "why_tests_cant": "The defaults call one another and remember what they discovered; the order of calls matters.", "anchors": ["lib/Astrobj.C: Generic::transmission, emission, radiativeQ"]}
{"id": "C28", "title": "An unpolarised object has the same opacity with and without polarisation", "statement": "For an object that only defines unpolarised emission and absorption, enabling polarisation attenuates the light behind it by the same transmitted fraction.", "quantifier": "for every transmitted fraction between 0 and 1 and every step", "why_tests_cant": "Continuum of inputs and needs two runs to be compared.", "anchors": ["lib/Astrobj.C: Generic::radiativeQ (polarised default)", "lib/Photon.C: Photon::transfer, transmit"]}
{"id": "C29", "title": "The camera's axes are orthonormal and sky coordinates are invertible", "statement": "For all three orientation angles the camera axes are orthonormal; converting a position to sky coordinates and back gives the same position.", "quantifier": "for all real angles and positions", "why_tests_cant": "Continuum of inputs.", "anchors": ["lib/Screen.C: Screen::computeBaseVectors, coordToSky, skyToCoord"]}
{"id": "C30", "title": "The observer position set is the one read back", "statement": "Setting the observer position and reading it back gives the same date, radius, colatitude and longitude.", "quantifier": "for every position", "why_tests_cant": "Continuum of inputs.", "anchors": ["lib/Screen.C: Screen::setObserverPos, getObserverPos"]}
{"id": "C31", "title": "The light ray launched from the camera is a null vector", "statement": "For every pixel direction and every observer with an orthonormal local frame, the launched four-vector has zero norm and unit frequency with respect to the observer.", "quantifier": "for every screen position, every angle kind and every orthonormal frame", "why_tests_cant": "Continuum of inputs.", "anchors": ["lib/Screen.C: Screen::getRayTriad"]}
{"id": "C32", "title": "Interpolating tabulated data in N dimensions", "statement": "Multilinear interpolation returns the table value at grid nodes, stays between the smallest and largest surrounding values, and is exact for functions that are affine in each variable; out-of-range queries follow the boundary condition selected for their own dimension.", "quantifier": "for every dimension N, every table and query", "why_tests_cant": "Dimension and tables are unbounded.", "anchors": ["lib/Astrobj.C: Generic::interp1d, interpNd, getIndice, interpolate"]}
{"id": "C33", "title": "Table look-ups stay inside the table", "statement": "For every query the cell index is such that the cell and its upper neighbour are inside the table.", "quantifier": "for every table length of at least two, every bounds and every query, every boundary condition", "why_tests_cant": "The failing queries are isolated points (for instance exactly the upper bound).", "anchors": ["lib/Astrobj.C: Generic::getIndice, interpolate", "lib/GridData2D.C: GridData2D::getIndices, interpolate"]}
{"id": "C34", "title": "Bisection finds the surface from the inside", "statement": "Starting from a date inside the object and one outside, the search returns a date inside the object, between the two, closer than the tolerance to a date outside the object.", "quantifier": "for every function along the trajectory, every pair of dates", "why_tests_cant": "Arbitrary functions.", "anchors": ["lib/Photon.C: Photon::findValue, findMin"]}
{"id": "C35", "title": "Radiative transfer through an object never leaves the current segment and never counts a stretch twice", "statement": "While processing one segment of a trajectory, all dates requested are within the segment, the intervals contributing to emission are disjoint and lie within it, and the loop terminates.", "quantifier": "for every object shape and every positive step", "why_tests_cant": "Arbitrary shapes.", "anchors": ["lib/StandardAstrobj.C: Standard::Impact"]}
{"id": "C36", "title": "Integrating a spectrum over a channel", "statement": "The channel integral does not depend on the order of the channel's bounds, is exact for spectra that are affine over the channel, and each refinement equals the trapezoidal rule on a twice finer regular grid.", "quantifier": "for every emission function and every pair of bounds", "why_tests_cant": "Arbitrary functions.", "anchors": ["lib/Astrobj.C: Generic::integrateEmission"]}
{"id": "C37", "title": "Unit conversions are mutually inverse", "statement": "Converting a value to a unit and back gives the same value, for lengths, times, masses and geometrical lengths in every supported unit.", "quantifier": "for every value, unit and metric mass", "why_tests_cant": "Values are a continuum and the two directions are separate chains of cases.", "anchors": ["lib/Converters.C: ToMeters, FromMeters, ToSeconds, FromSeconds, ToKilograms, FromKilograms, ToGeometrical, FromGeometrical, ToHerz, FromHerz"]}
{"id": "C38", "title": "The integrator's name can be used to select it again, and copies keep the integration settings", "statement": "For every integrator, selecting the integrator whose name is reported gives the same integrator; copying a worldline keeps integrator, tolerances and the choice of the 3+1 formalism.", "quantifier": "for every integrator kind and every setting", "why_tests_cant": "Copies are made silently by worker threads; results differ only numerically.", "anchors": ["lib/WorldlineIntegState.C: Boost::Boost, kind, clone; Legacy::clone", "lib/Worldline.C: Worldline::integrator, Worldline(const Worldline&)"]}
{"id": "C39", "title": "Optical transmission along a ray", "statement": "After any sequence of absorbing steps the recorded transmission of each channel is the product of the transmitted fractions of the steps, stays between 0 and 1 and never increases; copying a ray preserves it for every channel.", "quantifier": "for every sequence of steps and every number of channels", "why_tests_cant": "Unbounded sequences.", "anchors": ["lib/Photon.C: Photon::transmit, resetTransmission, getTransmissionMax, Photon(const Photon&)"]}
{"id": "C40", "title": "Spectral channels tile the band", "statement": "For a uniform spectrometer with at least one channel, boundaries start and end at the band limits, are evenly spaced (linear kinds), each channel's midpoint is half way between its bounds and widths add up to the band width; a composite spectrometer exposes the concatenation of its parts with channel indices pointing to the right boundaries.", "quantifier": "for every band, number of channels and every list of parts", "why_tests_cant": "Unbounded number of channels and parts.", "anchors": ["lib/UniformSpectrometer.C: Uniform::reset_", "lib/ComplexSpectrometer.C: Complex::tell, append, remove"]}
{"id": "C41", "title": "The integration step respects the configured limits", "statement": "The maximum step returned for a position is never below the configured minimum, and when the limits are consistent never above the configured maximum nor above the configured fraction of the distance.", "quantifier": "for every position and configuration", "why_tests_cant": "Continuum of inputs.", "anchors": ["lib/Metric.C: Generic::deltaMax", "lib/Worldline.C: Worldline::deltaMax"]}
{"id": "C42", "title": "Masked pixels are not computed and masks follow the image size", "statement": "A pixel is skipped exactly when a mask is set and zero there; changing the resolution to a different value drops the mask; querying outside the image is refused; without a mask every pixel is computed.", "quantifier": "for every mask, resolution history and pixel", "why_tests_cant": "Histories of resolution and mask changes are unbounded.", "anchors": ["lib/Screen.C: Screen::mask, resolution, operator()"]}
{"id": "C43", "title": "An object is thread-safe exactly when all the objects it holds are", "statement": "Asked whether it is thread-safe, an object whose class gives no answer of its own answers yes exactly when every object held by its properties, recursively, does; the question always gets an answer.", "quantifier": "for every finite nesting of objects through their properties", "why_tests_cant": "The nesting of objects is unbounded and the faulty type of property is not exercised.", "anchors": ["lib/Object.C: Object::isThreadSafe"]}
{"id": "C44", "title": "Parameters of nested objects can be set through a path", "statement": "Setting a parameter through names separated by '::' has exactly the effect of setting the last name on the object where the other names lead; only that object changes; an unknown name is reported by the return value without any change; crossing a property which is not an object, or not set, is an error; the name used decides the value of a boolean.", "quantifier": "for every chain of objects, path, content and unit", "why_tests_cant": "Paths and object graphs are unbounded.", "anchors": ["lib/Object.C: Object::setParameter"]}
{"id": "C45", "title": "Observer velocities and frames", "statement": "Off the axis the Keplerian circular velocity is a circular motion obeying Kepler's law in the requested direction and, where slower than light, a unit future-directed vector; the zero-angular-momentum velocity is a unit future-directed vector orthogonal to the azimuthal direction; the default observer frame built on a unit timelike four-velocity exists, keeps this velocity and is orthonormal with norms -1, 1, 1, 1.", "quantifier": "for every Lorentzian metric tensor, every position off the axis (off the origin) and every four-velocity", "why_tests_cant": "Continuum of inputs; the orthonormalisation divides by norms that must be shown never to vanish.", "anchors": ["lib/Metric.C: Generic::circularVelocity, zamoVelocity, observerTetrad, GramSchmidt"]}
{"id": "C46", "title": "The matrix of one step solves the equation of polarised transfer", "statement": "For every set of absorption and Faraday coefficients and every length, the transmission matrix of a step is the exponential of minus the absorption matrix times the length, and the emission matrix is the solution of the same equation with a constant source.", "quantifier": "for all real coefficients, angles and lengths", "why_tests_cant": "Continuum of inputs; degenerate coefficients are a set of measure zero.", "anchors": ["lib/Astrobj.C: Generic::Omatrix, Generic::Pmatrix"]}
{"id": "C47", "title": "Cameras agree between coordinate systems", "statement": "In flat space, cameras set at the same place and orientation launch the same light ray whether the metric uses spherical or Cartesian coordinates.", "quantifier": "for every position off the axis beyond the minimum distance, every orientation and every direction", "why_tests_cant": "Continuum of inputs; the two branches are separate code.", "anchors": ["lib/Screen.C: Screen::getRayTriad"]}
{"id": "C48", "title": "Rays come from the direction meant by the screen angles", "statement": "For spherical, rectilinear and equatorial screen angles, the launched photon comes from the direction these angles denote, and bringing the angles to their standard range does not change it.", "quantifier": "for all screen angles", "why_tests_cant": "Continuum of inputs.", "anchors": ["lib/Screen.C: Screen::getRayTriad(double, double, ...)"]}
{"id": "C49", "title": "The polarisation basis is orthonormal and transverse", "statement": "The two polarisation vectors attached to a ray at the screen are unit vectors, orthogonal to each other and to the ray, and form a right-handed triad with it; conversion to coordinates keeps lengths and angles.", "quantifier": "for all angles, position angles and metrics with positive diagonal space components", "why_tests_cant": "Continuum of inputs.", "anchors": ["lib/Screen.C: Screen::getRayTriad(double, double, ...)"]}
{"id": "C50", "title": "Pixels tile the field of view", "statement": "Pixel directions are centred, inside the field of view and pairwise different; moving a distant observer closer keeps the line of sight and the impact parameters and corrects the date.", "quantifier": "for every resolution, field of view, pixel and distance", "why_tests_cant": "Unbounded resolutions, continuum of angles.", "anchors": ["lib/Screen.C: Screen::getRayTriad"]}
{"id": "C53", "title": "A thin disk is hit where its plane is crossed", "statement": "For consecutive points of a photon that are not on the equatorial plane: nothing is hit if both are on the same side; if they are on different sides, the date of the crossing is found within the tolerance and the disk is hit exactly if the radius there is between the inner and outer ones; the path through the disk is its thickness divided by the cosine of the incidence; the test on angles never throws.", "quantifier": "for every photon, whole turns of its angles, radii, and pair of dates", "why_tests_cant": "Continuum of trajectories; angles outside of their usual range are rare.", "anchors": ["lib/ThinDisk.C: ThinDisk::operator(), projectedRadius, Impact", "lib/SimThinDisk.C: SimThinDisk::Impact"]}
{"id": "C54", "title": "3+1 variables of a trajectory point", "statement": "Passing from a four-velocity to the 3+1 variables and back gives the same point; the 3+1 norm is consistent with the norm of the metric, so that null four-velocities correspond to unit 3-velocities.", "quantifier": "for every metric splitting with positive lapse and every four-velocity with positive time component", "why_tests_cant": "Continuous domain; errors are silent in integration results.", "anchors": ["lib/WorldlineIntegState.C: Boost::nextStep, Boost::doStep", "lib/Metric.C: computeNBeta"]}
{"id": "C55", "title": "Check and repair of the transported polarisation basis", "statement": "The check of the transported basis reports zero exactly for an orthonormal basis orthogonal to the tangent vector; after the repair the basis is orthonormal and orthogonal to the tangent.", "quantifier": "for every metric, tangent and basis", "why_tests_cant": "The repair runs only after long integrations in strong fields.", "anchors": ["lib/WorldlineIntegState.C: checkBasis, reorthonormalizeBasis"]}
{"id": "C56", "title": "Integration steps use the current settings", "statement": "Whatever sequence of settings, copies and integrations came before, each integration step uses the worldline's current metric, step control, tolerances and transport flags, and the change of variables applied to the vector matches the equation of motion that is integrated.", "quantifier": "for every sequence of operations on a worldline", "why_tests_cant": "State is cached in several objects; stale caches depend on the history.", "anchors": ["lib/WorldlineIntegState.C: Generic::init, Boost::init, nextStep, doStep", "lib/Worldline.C: setters"]}
{"id": "C57", "title": "Adaptive step search stays within its limits and ends", "statement": "The search for an adaptive step never throws, tries only steps between the smallest and the largest step, accepts a step only when the error control accepts it or at the smallest step, and ends.", "quantifier": "for every error control, every starting step and limits", "why_tests_cant": "Depends on sequences of rejected steps of any length.", "anchors": ["lib/WorldlineIntegState.C: Boost::nextStep", "lib/Worldline.C: deltaMax"]}
{"id": "C60", "title": "Spectral band given in a unit", "statement": "Asking a uniform spectrometer for its band in the unit it was given in returns the limits that were given, for the four kinds.", "quantifier": "for every kind, unit and limits", "why_tests_cant": "Real-valued limits; only the linear kinds are usually exercised.", "anchors": ["lib/UniformSpectrometer.C: Uniform::band"]}
{"id": "C51", "title": "Polarisation angle of a magnetic or electric field", "statement": "The angle getChi returns for a field in the emitter's frame lies in [-pi/2, pi/2] and the direction it stands for on the screen is a unit vector orthogonal to the emitter's velocity, to the ray and to the magnetic field (in the plane of the ray and the field for an electric field); an angle is returned for every field not along the ray; adding multiples of the wave vector to the transported basis or reversing the field does not change what the Stokes parameters are rotated by; the rotation keeps I, V and the degree of linear polarisation.", "quantifier": "for every metric, photon, transported basis, emitter velocity and field", "why_tests_cant": "Real-valued four-vectors in an arbitrary metric.", "anchors": ["lib/Astrobj.C: Generic::getChi", "lib/Astrobj.C: Generic::getSinCos2Chi", "lib/Astrobj.C: Generic::rotateJs"]}
{"id": "C52", "title": "Magnetic field vector of an emitter", "statement": "The vector computeB4vect returns has unit length, is orthogonal to the emitter's four-velocity and its space part points along the direction the configuration is named after (against it for the names ending in -n); a vector is returned whenever the emitter moves slower than light and the direction is not zero.", "quantifier": "for every configuration name, coordinate kind, metric, position and velocity", "why_tests_cant": "Real-valued vectors in an arbitrary metric.", "anchors": ["lib/Astrobj.C: Generic::computeB4vect"]}
{"id": "C58", "title": "Composite objects: parts, metric and hits", "statement": "A composite astronomical object behaves as the ordered list of the parts appended and not removed: indexing returns the parts in order and refuses anything beyond the last. Setting its metric sets the metric of every part and of nothing else, and all parts keep sharing the composite's metric whatever is appended, removed or set afterwards. Its maximum radius is the largest of its own and its parts'. When a photon crosses it, the composite reports a hit exactly when at least one part does; parts that are not hit are never asked to process anything; every part hit processes every date of the segment exactly once (apart from the finitely many refinement dates), the latest stretch first and, within a stretch, in the order of the parts.", "quantifier": "every sequence of append, remove and metric operations, every list of answers from the parts, every pair of dates and every positive refinement step", "why_tests_cant": "Tests use one or two overlapping objects; a stretch handed twice, or missed, to one part only changes intensities slightly.", "anchors": ["lib/ComplexAstrobj.C:66-180"]}
{"id": "C59", "title": "Dates of a refined worldline", "statement": "Refining one segment of a worldline between two dates with a positive maximum step gives at least two dates, evenly spaced from the first date to the second in the direction of integration, with consecutive dates closer than the maximum step, every entry of the array set and no access outside it.", "quantifier": "every pair of dates, both directions, every positive step asking for fewer than 2^64 dates", "why_tests_cant": "An off-by-one in the backward direction or in the number of dates only shows for particular quotients.", "anchors": ["lib/Worldline.C:137-180"]}
{"id": "C61", "title": "Forms of a metric agree with one another", "statement": "For each metric the coefficient form of gmunu and of gmunu_up returns the coefficients of the matrix form, the matrix is symmetric, gmunu_up is its inverse and the optimised scalar product is the generic one.", "quantifier": "for every metric parameter and every position outside the coordinate singularities", "why_tests_cant": "Real-valued positions and parameters; a wrong sign in one coefficient shows only where that coefficient matters.", "anchors": ["lib/KerrBL.C: gmunu, gmunu_up, ScalarProd", "lib/Minkowski.C: gmunu", "lib/ReissnerNordstrom.C: gmunu, gmunu_up"]}
{"id": "C62", "title": "Christoffel symbols are those of the metric", "statement": "The coefficients returned by christoffel are the Christoffel symbols of the metric returned by gmunu: symmetric in the lower indices and, once lowered, equal to the combination of its partial derivatives.", "quantifier": "for every metric parameter and every position where the metric is regular", "why_tests_cant": "Identities between derivatives of real functions; a slip in one term shows only off the symmetry planes.", "anchors": ["lib/KerrBL.C: christoffel", "lib/Minkowski.C: christoffel", "lib/SchwarzschildHarmonic.C: christoffel", "lib/ReissnerNordstrom.C: christoffel", "lib/RezzollaZhidenko.C: christoffel", "lib/BalasinGrumiller.C: christoffel"]}
{"id": "C63", "title": "Lapse and shift are those of the metric", "statement": "computeNBeta returns the lapse and shift of the metric: g_ij β^i β^j − N² = g_tt and g_ij β^j = g_ti.", "quantifier": "for every spin and position outside the horizon", "why_tests_cant": "Real-valued positions and spins.", "anchors": ["lib/KerrBL.C: computeNBeta"]}
{"id": "C64", "title": "Integration around a charged black hole stops at the horizon", "statement": "isStopCondition of the Reissner-Nordström metric is true exactly when the radius is below the outer horizon plus the security margin, and depends on the charge only through its square, as the metric does.", "quantifier": "for every charge, margin and position", "why_tests_cant": "Negative charges and extremal ones are rarely exercised.", "anchors": ["lib/ReissnerNordstrom.C: isStopCondition"]}
{"id": "C65", "title": "A copy of a parametrised metric behaves as the original", "statement": "Copying a Rezzolla-Zhidenko metric gives one with the same parameters and radii, hence the same answers everywhere; setting the expansion parameters keeps the values given and refuses more than four or negative ones.", "quantifier": "for every set of parameters and every position", "why_tests_cant": "Copies are made implicitly, one per thread.", "anchors": ["lib/RezzollaZhidenko.C: copy constructor, gmunu, aparam, bparam"]}
{"id": "C66", "title": "The Kerr integrator follows geodesics and keeps their constants", "statement": "KerrBL::diff returns the derivatives that Hamilton's equations prescribe for the inverse metric gmunu_up, whenever the momentum carries the energy and the angular momentum of the constants of motion; it returns a value exactly outside the sink, off the axis and off the horizon; along any solution of these equations the energy, the angular momentum, the mass and Carter's constant do not change.", "quantifier": "for every spin, position, momentum and every solution on any interval", "why_tests_cant": "A wrong term of the right-hand side gives a smooth trajectory that looks right; the constants are only checked to a tolerance along the way.", "anchors": ["lib/KerrBL.C: diff"]}
{"id": "C67", "title": "Velocities, momenta and constants of the motion agree", "statement": "With the constants computed by computeCst, MakeMomentum lowers the index of the velocity and MakeCoord raises that of the momentum; each undoes the other; the constants found from a velocity made from a momentum are those of the momentum; the mass is 0 or 1 according to the norm; diff and MakeCoord give the same derivatives.", "quantifier": "for every spin, regular position, velocity and momentum", "why_tests_cant": "Conversions are done at each step and an inconsistency only shows as a slow drift.", "anchors": ["lib/KerrBL.C: MakeCoord, MakeMomentum, computeCst, diff"]}
{"id": "C68", "title": "Norm and Carter's constant are restored after each step", "statement": "Normalize4v gives the velocity the norm asked for, without changing the sign of the radial component, whenever the other components leave room for it, leaves a normalised velocity alone, and otherwise sets the radial component to zero or is an error; CheckCons returns momenta with the energy, angular momentum and mass of the constants and with a Carter constant right to one part in a million.", "quantifier": "for every spin, position outside the horizon, velocity and constants", "why_tests_cant": "The correction is only triggered by a drift, and its branches (thresholds, signs, negative constants) are rarely met.", "anchors": ["lib/KerrBL.C: Normalize4v, CheckCons"]}
{"id": "C69", "title": "circularVelocity is the velocity of a free circular orbit", "statement": "In the equatorial plane, circularVelocity of KerrBL, SchwarzschildHarmonic, ReissnerNordstrom and RezzollaZhidenko returns a future-directed unit vector that only turns around the axis, in the direction asked for, and that the Christoffel symbols of the same metric give no acceleration; out of the plane it is still a unit vector.", "quantifier": "for every parameter of the metric and every radius where such an orbit is slower than light", "why_tests_cant": "A wrong angular velocity or normalisation gives images that look right, slightly redshifted.", "anchors": ["lib/KerrBL.C: circularVelocity", "lib/SchwarzschildHarmonic.C: circularVelocity", "lib/ReissnerNordstrom.C: circularVelocity", "lib/RezzollaZhidenko.C: circularVelocity"]}
{"id": "C70", "title": "Angular momentum and potential are those of the observers", "statement": "getSpecificAngularMomentum is -u_phi/u_t for the circular orbit given by circularVelocity; getPotential is -ln|u_t| for any unit vector that turns around the axis with the given angular momentum; KerrBL::zamoVelocity is a unit vector without angular momentum.", "quantifier": "for every parameter of the metrics, every position and every angular momentum for which there is such an observer", "why_tests_cant": "Thick disks are bounded by level surfaces of this potential; an error moves the surface without any failure.", "anchors": ["lib/KerrBL.C: getSpecificAngularMomentum, getPotential, zamoVelocity", "lib/ReissnerNordstrom.C: getSpecificAngularMomentum, getPotential", "lib/RezzollaZhidenko.C: getSpecificAngularMomentum, getPotential"]}
{"id": "C71", "title": "Marginally stable and marginally bound radii", "statement": "KerrBL::getRms is the radius where the energy of the prograde circular orbits is stationary; KerrBL::getRmb is the radius where the prograde circular orbit has the energy of a particle at rest far away.", "quantifier": "for every spin between -1 and 1", "why_tests_cant": "Only a few spins are ever compared with tables, none of them negative.", "anchors": ["lib/KerrBL.C: getRms, getRmb"]}
{"id": "C72", "title": "The observer's tetrad in the Kerr metric", "statement": "KerrBL::observerTetrad turns the velocity of an observer into an orthonormal tetrad: the normalised velocity and three unit vectors orthogonal to it and to one another, pointing against the rotation, to the north and towards the centre.", "quantifier": "for every spin, every position outside the horizon and off the axis, and every velocity slower than light", "why_tests_cant": "The formulas are rational functions of the metric and the velocity; tests use a few static or circular observers, for which most terms vanish.", "anchors": ["lib/KerrBL.C: observerTetrad"]}
{"id": "C73", "title": "The 3+1 equations of motion follow geodesics", "statement": "A solution of the equations returned by KerrBL::diff31, converted to position and four-velocity as Worldline::IntegState::Boost does, is a geodesic of the metric KerrBL::gmunu returns; the conversion is possible as long as the energy is not zero.", "quantifier": "for every spin, every state outside the horizon and off the axis, photons and massive particles", "why_tests_cant": "The right-hand side has about fifty intermediate quantities; a wrong coefficient in one of them only drifts the trajectory slowly and no test compares 3+1 and 4D integrations term by term.", "anchors": ["lib/KerrBL.C: diff31", "lib/WorldlineIntegState.C: nextStep, doStep"]}
{"id": "C74", "title": "The generic equations of motion are the geodesic equation with parallel transport", "statement": "Metric::Generic::christoffel, given the inverse metric and the derivatives of the metric, returns the Christoffel symbols of that metric. A solution of the equations returned by Metric::Generic::diff moves at its tangent vector and transports the tangent vector and every further vector of the state parallel to themselves; the scalar products of any two of these vectors, and each one's norm, keep their values. The integration goes on exactly as long as the time component of the tangent vector is at least 1e-6 and the connection is available.", "quantifier": "for every metric, every state size, every pair of carried vectors, every differentiable solution", "why_tests_cant": "A test only compares a few trajectories at a tolerance; a wrong index in the sum or a wrong stride for the carried vectors gives smooth trajectories, and the conservation law concerns every metric including those supplied by plug-ins.", "anchors": ["lib/Metric.C: christoffel, diff"]}
{"id": "C75", "title": "A step of the fixed-step integrator is accurate to fourth order", "statement": "Metric::Generic::myrk4, started on an exact solution of the equations returned by diff, lands within a multiple of the fifth power of the step of that solution wherever the equations are analytic, in particular on geodesics; it keeps every linear invariant of the equations exactly, updates only the first eight elements of the state, fails if the equations are not available at the start, and throws only if they do.", "quantifier": "for every vector field analytic at the start, every state, every small step", "why_tests_cant": "The order of a method is an asymptotic statement: a test with one step size cannot tell a wrong coefficient, which lowers the order to 1, 2 or 3, from a large constant.", "anchors": ["lib/Metric.C: myrk4"]}
{"id": "C76", "title": "The adaptive integrator ends and respects its tolerance and its step limits", "statement": "When Metric::Generic::myrk4_adaptive returns 0, the new state is one step of a length not above the one proposed and in the same direction, two steps of half that length lead to within the tolerance of it, and the next step is in the same direction, at most the maximum, and at least the minimum when the two are compatible. The loop ends wherever the equations of motion are available and continuous around the start, whatever the step proposed. The three calls it joins with | need to be made from left to right, an order which the language does not guarantee.", "quantifier": "for every vector field, state, tolerance setting, proposed step and number of turns", "why_tests_cant": "A loop without a bound on its turns cannot be shown to end by running it, and the order of evaluation depends on the compiler used for the test.", "anchors": ["lib/Metric.C: myrk4_adaptive"]}
{"id": "C77", "title": "The fixed-step integrators of the Kerr metric are accurate to fourth order and keep energy and angular momentum", "statement": "KerrBL::myrk4, on positions and velocities as on positions and momenta, started on an exact solution of the Kerr equations of motion lands within a multiple of the fifth power of the step of that solution, velocities included. Energy and angular momentum of the result are exactly those it was given. It refuses with code 1 a start within 1e-10 of the axis, for polar angles from -pi/2 on, and with code 2 a start below the sink radius.", "quantifier": "for every spin, constants, state outside the horizon and off the axis, every exact solution, every small step", "why_tests_cant": "The order is an asymptotic statement, and exact conservation cannot be told from approximate conservation by a test with a tolerance.", "anchors": ["lib/KerrBL.C: myrk4"]}
{"id": "C78", "title": "The adaptive Kerr integrator accepts only confirmed steps, keeps the constants and ends", "statement": "When KerrBL::myrk4_adaptive succeeds, the position it writes is that of one fixed step in the direction of the proposed one, which two steps of half the length confirm within the tolerance on each of the eight quantities; the momenta are those of that step or what CheckCons made of them, changed by at most difftol in relative value; the energy and the angular momentum are exactly those of the constants; the proposed next step has the same direction, at most h1max and at least delta_min. From a regular point, with a step other than zero, it returns after finitely many turns.", "quantifier": "for every spin, position, velocity, constants of motion, tolerance and step", "why_tests_cant": "The loops shorten and lengthen the step depending on the field near the axis; no finite set of runs shows that they always end.", "anchors": ["lib/KerrBL.C:826-1036"]}
{"id": "C79", "title": "The Kerr metric in Kerr-Schild coordinates, its inverse, derivatives, stop condition and circular velocity", "statement": "KerrKS computes r as the radius of the spheroid through the point; the metric asked as a matrix or by component is one symmetric matrix; gmunu_up is its inverse; jacobian gives its derivatives and the generic code gets the Christoffel symbols from them; the integration stops exactly inside the spheroid of the sink radius; circularVelocity is the unit velocity of a geodesic circle of the equatorial plane.", "quantifier": "for every spin and every position off the disk spanned by the ring; for every equatorial radius where the circle is timelike", "why_tests_cant": "The formulas are rational functions with two nested roots; agreement at sample points does not give agreement everywhere, and Kepler's law without the spin term is close to the right one.", "anchors": ["lib/KerrKS.C:84-300"]}
{"id": "C80", "title": "KerrKS and KerrBL are the same spacetime", "statement": "The change from Boyer-Lindquist to Kerr-Schild coordinates takes the metric of KerrKS to the metric of KerrBL, and the radius KerrKS computes is the Boyer-Lindquist one.", "quantifier": "for every spin, every position of positive radius off the horizons", "why_tests_cant": "The two classes are written independently in different coordinates; no run compares their metrics, only images up to a tolerance.", "anchors": ["lib/KerrKS.C:84-105", "lib/KerrBL.C: gmunu"]}
{"id": "C81", "title": "The Hayward metric, its inverse and its Christoffel symbols", "statement": "Hayward::gmunu is the Kerr metric in Boyer-Lindquist coordinates with the mass replaced by |r|^3/(|r|^3+2b^2), in one formula over the three blocks of the code (r>=1, 0<=r<1, r<0); the metric asked by component equals the matrix; gmunu_up is its inverse, as a matrix and by component; christoffel gives the Christoffel symbols of that metric.", "quantifier": "for every spin and charge and every position off the axis, the horizons and the edge of the disk, for radii of both signs and at the seams r=0 and r=1", "why_tests_cant": "Each block is a separate page of rational functions of degree ten in r or 1/r; a wrong sign in one term of one block is visible only for the radii of that block, and negative radii are hardly ever visited.", "anchors": ["lib/Hayward.C:133-185", "lib/Hayward.C:190-242", "lib/Hayward.C:247-302", "lib/Hayward.C:305-351", "lib/Hayward.C:355-474"]}
{"id": "C82", "title": "Circular orbits of the Hayward metric", "statement": "In the equatorial plane Hayward::circularVelocity gives the unit velocity towards the future of an observer in free fall on a circular orbit, in the sense of rotation asked; getSpecificAngularMomentum is -u_phi/u_t of the prograde one; getPotential is -ln|u_t| of any observer on a circle with the angular momentum given; ScalarProd is the scalar product of the metric.", "quantifier": "for every spin, charge, sense of rotation and radius where gravity is attractive, the orbit slower than light and the two denominators of the code are not zero; for ScalarProd and getPotential everywhere the metric is regular", "why_tests_cant": "The closed forms for the angular velocity, the angular momentum and the metric are written separately; a sample of radii cannot show that they satisfy the geodesic equation everywhere.", "anchors": ["lib/Hayward.C:75-128", "lib/Hayward.C:479-504"]}
{"id": "C83", "title": "The Chern-Simons metric and its circular orbits", "statement": "With zero coupling ChernSimons::gmunu agrees with the Kerr metric up to the third order in the spin, component by component; the metric asked by component is the matrix; gmunu_up is its inverse; in the equatorial plane circularVelocity is the unit velocity towards the future of an observer in free fall in the Chern-Simons metric itself, for every coupling, in the sense of rotation asked.", "quantifier": "for every position off the horizon, every spin (in the limit of small spins for the comparison with Kerr), every coupling, and every radius with r^3 > a^2 where the orbit is slower than light", "why_tests_cant": "An expansion to the second order differs from Kerr by a small quantity at any sampled spin whether a term is right or wrong; the closed form of the angular velocity must be compared with the derivatives of the metric at every radius and coupling.", "anchors": ["lib/ChernSimons.C:70-120", "lib/ChernSimons.C:292-334"]}
{"id": "C84", "title": "ChernSimons::diff follows the geodesics of its metric", "statement": "The right-hand side written by ChernSimons::diff is, to the order in the spin to which it is written, that of the equations of Euler and Lagrange of ChernSimons::gmunu: to the first order for every coupling and to the second order without coupling. It is written for every spin outside of r = 2.2 and off the axis, and the integration stops only between the centre and the numerical horizon.", "quantifier": "for every coupling, position with r >= 2.2 off the axis, energy, angular momentum and momentum, in the limit of small spins", "why_tests_cant": "The difference with the exact equations is a small number at any sampled spin; only its order tells a truncation from a wrong term.", "anchors": ["lib/ChernSimons.C:126-290"]}
{"id": "C85", "title": "Disks read from a grid keep their arrays in step and interpolate within them", "statement": "Whatever sequence of copyIntensity, copyOpacity, copyVelocity, copyGridRadius, repeatPhi, phimin, phimax, innerRadius, outerRadius and the other setters of PatternDisk is called, with arrays at least as long as announced and exceptions included, the stored arrays have the size of the grid and no caller's array is read beyond its end; the copy of a disk has the same contents; emission() is the bilinear interpolation of the grid in the cell holding the point (linear with one column, through the seam between the last and the first column, folded by the period of a repeated pattern), transmission() the exponential of minus opacity times length, getVelocity() interpolates the array of velocities; no element outside of the arrays is read.", "quantifier": "for every sequence of calls, every grid of any size, every position between the inner and the outer radius, every azimuth, date and frequency", "why_tests_cant": "The faults are at the edges of the grid and in sequences of calls that change one dimension after another; reading one element too far rarely shows in a test.", "anchors": ["lib/PatternDisk.C:74-101", "lib/PatternDisk.C:129-263", "lib/PatternDisk.C:600-933"]}
{"id": "C86", "title": "Thick disks read from a grid keep their arrays in step and look up the nearest sample", "statement": "Whatever sequence of copyEmissquant, copyOpacity, copyVelocity, repeatPhi, rin, rout, zmin, zmax, phimin, phimax and the other setters of Disk3D is called, with arrays at least as long as announced and exceptions included, the stored arrays have the size of the grid, and no caller's array is read beyond its end; the copy of a disk has the same contents; at a point of the grid the look-up gives the sample nearest in azimuth (in the frame turning with the pattern), height (mirrored when the grid covers only the upper half) and radius; getVelocity() gives the rates of that sample, turned into the rates of the spherical coordinates of the same motion.", "quantifier": "for every sequence of calls, every grid of any size, every position within its limits, every date and every frequency below 2^64 steps", "why_tests_cant": "Arrays out of step after a sequence of calls and indices at the edges of the grid only show as reads outside of an array, which tests with one fixed grid do not make.", "anchors": ["lib/Disk3D.C:83-127", "lib/Disk3D.C:142-260", "lib/Disk3D.C:580-708"]}
{"id": "C87", "title": "The walk through a thick disk processes the points inside the grid, one step after the other", "statement": "Impact() of a Disk3D walks back along a segment of the worldline by steps of 0.1: every point it processes lies on the segment and inside the grid; with radiative transfer they are all the successive points after the first one found inside until the photon leaves the grid, the last at the end of the segment; without radiative transfer at most one; it returns 0 exactly when both ends are beyond twice the outer radius on the same side of the equatorial plane or no date of the walk is inside, and then processes nothing.", "quantifier": "for every worldline, every segment of it, every grid", "why_tests_cant": "The walk depends on the whole worldline and on how the steps fall with respect to the end of the segment; tests follow a few photons and look at sums.", "anchors": ["lib/Disk3D.C:710-836"]}
{"id": "C88", "title": "Disks lit by a lamp interpolate their intensity in frequency, angle and radius", "statement": "Whatever sequence of copyIntensity, copyGridRadius, copyGridCosi, copyGridFreq and the setters of DirectionalDisk is called, with arrays at least as long as announced and exceptions included, the arrays have the size of the grid, no array of the caller is read beyond its end and the copy of a disk has the same contents; LampCutOffsIneV reads back as it was set; emission() throws if the band of the lamp, shifted by the ratio of the energies of a photon without angular momentum measured by the disk in circular free fall and by the lamp at rest on the axis, is not within the frequencies computed; it is zero outside of that band and outside of the grid; inside, it is the trilinear interpolation of the grid at the cosine of the angle with the normal in the frame of the disk, a number between 0 and 1 (bilinear for a cosine below or above the grid, or with the mean over the cosines by trapezes).", "quantifier": "for every sequence of calls, every grid of any size, every spin, radius, altitude of the lamp, frequency and photon", "why_tests_cant": "The look-up only fails at the edges of the grid and beyond; the shift and the angle are functions of real parameters.", "anchors": ["lib/DirectionalDisk.C:68-260", "lib/DirectionalDisk.C:449-697"]}
{"id": "C89", "title": "The gridded disks hold what was copied into them and use the nearest frequency", "statement": "copyIntensity/copyEmissquant, copyOpacity, copyVelocity and the copyGrid methods of PatternDisk, Disk3D and DirectionalDisk succeed exactly when the dimensions given make sense and agree with those of the disk; the disk then holds the elements of the caller in their order, as many as announced, the other arrays are kept as long as their dimensions have not changed, and no parameter set by the user changes (but the radii for copyGridRadius and the radiative transfer for copyOpacity); copying from a null pointer frees the one array; each setter changes its parameter only; the index in frequency is that of the sample nearest to the frequency, the first below the grid and the last above.", "quantifier": "for every disk in any state, every array, all dimensions and every frequency", "why_tests_cant": "The combinations of former and new dimensions, and of arrays present or not, are many; a stale array or a lost parameter shows in no single image.", "anchors": ["lib/PatternDisk.C:129-263", "lib/Disk3D.C:142-274", "lib/DirectionalDisk.C:129-251", "lib/PatternDisk.C:602-606", "lib/Disk3D.C:614-618"]}
{"id": "C90", "title": "A disk read from a series of files frees each of its arrays once", "statement": "Whatever sequence of file(), emission(), getVelocity(), tinit() and dt() is called on a DynamicalDisk, and whether or not a file lacks something or a method of the base throws, no array is freed twice, no pointer that was never written is used, the destructor gives all the memory back and a clone holds the data of the original.", "quantifier": "for every sequence of calls, every number of files, every contents and every outcome of reading and of the methods of the base", "why_tests_cant": "Double frees after an exception, leaks and empty clones do not show in an image; the sequences of calls are infinitely many.", "anchors": ["lib/DynamicalDisk.C:52-139", "lib/DynamicalDisk.C:206-301", "lib/PatternDisk.C:63-124", "lib/PatternDisk.C:256-471"]}
{"id": "C91", "title": "A disk read from a series of files is interpolated linearly in time", "statement": "emission() and getVelocity() of a DynamicalDisk give at each date the linear interpolation between the two files whose dates enclose it, the first file before the first date and the last after the last; the answer depends on nothing but the files, tinit and dt last set.", "quantifier": "for every sequence of calls, every number of files, every initial date, positive time step and date", "why_tests_cant": "The dates are real numbers, and the defect is in one interval only.", "anchors": ["lib/DynamicalDisk.C:141-203"]}
{"id": "C92", "title": "The root finders end and return a root, or say that they have not", "statement": "ridders(from, to), given two points at which the function has opposite signs, ends, divides by nothing that is zero, and returns a point between them that is a root to within the tolerance; secant(from, to) sets status to 0 only when it has converged to a root, and to another value when it has not.", "quantifier": "for every function, every pair of points and every number of turns", "why_tests_cant": "The functions are arbitrary and the number of turns depends on them.", "anchors": ["lib/Functors.C:34-97", "include/GyotoFunctors.h:58-90"]}
{"id": "C93", "title": "Integrating a spectrum over a band", "statement": "integrate(nu1, nu2) ends and returns the integral of the spectrum between the two frequencies, in whatever order they are given, to one hundredth.", "quantifier": "for every spectrum and every pair of frequencies", "why_tests_cant": "Arbitrary functions; how far a sum is from an integral cannot be seen from the sum.", "anchors": ["lib/Spectrum.C:59-129"]}
{"id": "C94", "title": "Transfer and distance of a uniform sphere", "statement": "What a ray receives from a uniform sphere, and its transmission, are the solution of the equation of transfer for the spectrum and the opacity, and do not depend on how the path is cut; a point is inside exactly when it is nearer to the centre than the radius, in every metric; the steps are not shorter than the fractions asked for.", "quantifier": "for every spectrum, opacity, frequency, list of stretches, position of the star and of the photon", "why_tests_cant": "Any number of stretches of any length, any position.", "anchors": ["lib/UniformSphere.C:131-263", "lib/Spectrum.C:131-137"]}
{"id": "C95", "title": "Spectra have the parameters last set", "statement": "After any sequence of calls to its setters the value of a power law or of a black body is that of the law for the parameters last set, the getters return these, a wrong number of cut-offs is refused, and writing the spectrum in a file and reading it gives the same spectrum.", "quantifier": "for every sequence of calls, every value and every frequency", "why_tests_cant": "Any sequence of calls.", "anchors": ["lib/PowerLawSpectrum.C:44-82", "lib/BlackBodySpectrum.C:40-62"]}
{"id": "C96", "title": "Shifted metrics and sums of metrics", "statement": "A Shift describes its sub-metric translated by the offset: the tensors, their derivatives, the Christoffel symbols, the motion and the stop condition at a point are those of the sub-metric at the point moved back; its mass is always that of the sub-metric, and no destroyed Shift is told of a change. A Complex describes the sum of its elements, stops where one of them does, and all its elements have its kind of coordinates whatever is appended and removed.", "quantifier": "for every sub-metric, offset, point, curve and list of elements; every sequence of creations, clones, destructions and changes of sub-metric and of mass", "why_tests_cant": "Any metric as element, any number of objects sharing it, any order of calls.", "anchors": ["lib/Shift.C:53-128", "lib/ComplexMetric.C:31-140", "lib/ComplexMetric.C:177-182", "lib/Hooks.C:68-94"]}
{"id": "C97", "title": "Photons look for objects where these are", "statement": "The function of a torus is the square of the distance to its circle. A photon calls Impact of an object only at radii below rMax(): for a torus, a fixed star and a star every point inside the object is at a radius below rMax(), whatever calls set the radii, the position and the metric.", "quantifier": "for every torus and star, every position, every orbit, every sequence of calls and every kind of coordinates", "why_tests_cant": "Unboundedly many places, orbits and sequences of calls.", "anchors": ["lib/Torus.C:73-171", "lib/FixedStar.C:84-185", "lib/Star.C:189-204", "lib/Photon.C:300", "lib/Photon.C:659-677"]}
{"id": "C98", "title": "The thin disk of Page and Thorne", "statement": "The bolometric intensity of a PageThorneDisk is the flux that conservation of energy and angular momentum give for matter on circular orbits without torque at the marginally stable orbit: zero there, positive beyond; the same in KerrBL and KerrKS coordinates; scaled by the mass and the accretion rate. The temperature is that of a black body with this flux. The disk follows the metric it was given and its spin.", "quantifier": "for every spin, radius, mass, accretion rate and sequence of calls of metric() and spin()", "why_tests_cant": "An integral for a continuum of spins and radii; unboundedly many sequences of calls.", "anchors": ["lib/PageThorneDisk.C:90-113", "lib/PageThorneDisk.C:115-124", "lib/PageThorneDisk.C:126-150", "lib/PageThorneDisk.C:156-219", "lib/PageThorneDisk.C:277-363", "lib/PageThorneDisk.C:372-374"]}
{"id": "C99", "title": "The parametrised black hole of Konoplya, Rezzolla and Zhidenko", "statement": "Without deformation the metric is that of Kerr outside of the horizon; with any deformation r0 is a horizon, gmunu_up is the inverse of gmunu and christoffel is its connection. circularVelocity returns a unit vector in free fall around the axis in the sense asked for. The setters keep the deformation parameters in their ranges, refuse the others without effect, and a clone behaves as its original.", "quantifier": "for every spin, deformation, position, direction and sequence of calls of the setters", "why_tests_cant": "A continuum of spins, deformations and positions; the connection is a statement on derivatives; unboundedly many sequences of calls.", "anchors": ["lib/KonoplyaRezzollaZhidenko.C:59-123", "lib/KonoplyaRezzollaZhidenko.C:149-176", "lib/KonoplyaRezzollaZhidenko.C:191-429", "lib/KonoplyaRezzollaZhidenko.C:431-613", "lib/KonoplyaRezzollaZhidenko.C:672-771"]}
{"id": "C100", "title": "What the hits of a ray add to the requested quantities", "statement": "Following a ray from the observer outward, the intensity, the spectrum, the binned spectrum and the Stokes parameters each receive what is observed from the succession of layers met (emission times the third or fourth power of the redshift, behind the product of what the layers in front let through), in the elements of their channels only and whichever other quantities are requested; a quantity of which the pointer is null is ignored. What lies behind an opaque object changes nothing: the redshift and the date are those of the first opaque hit.", "quantifier": "for every sequence of hits, object, spectrometer, set of requested quantities, memory layout and proportional units", "why_tests_cant": "Unboundedly many hits and channels, a continuum of emissivities, and 2^9 sets of quantities whose interplay (who updates which transmission) matters only in rare combinations.", "anchors": ["lib/Astrobj.C:163-448", "lib/Photon.C:677-698", "lib/Photon.C:1172-1261", "include/GyotoAstrobj.h:800-932"]}
{"id": "C101", "title": "The velocity of the gas of thin disks down to the horizon", "statement": "In a Kerr spacetime getVelocity of the thin disks returns, outside the last stable orbit, the free circular orbit; inside, the free fall that keeps the energy and angular momentum of the last stable orbit; in radial motion the free fall from rest far away without angular momentum; in mixed motion a unit vector four fifths of the way between. ThinDiskProfile, ThinDiskGridIntensity, SimBridge and StochasticThinDisk agree where they offer the same motion; with the metric of Rezzolla and Zhidenko the circular velocity outside the last stable orbit is that of circularVelocity. Every velocity returned is a future unit vector.", "quantifier": "for every spin, every position of the equatorial plane outside the horizon, every kind of motion", "why_tests_cant": "A continuum of spins and radii; free fall is a statement on derivatives along the flow.", "anchors": ["lib/ThinDiskProfile.C:216-391", "lib/ThinDiskGridIntensity.C:330-360", "lib/SimBridge.C:834-857", "lib/StochasticThinDisk.C:317-370", "lib/KerrBL.C:127-133"]}
{"id": "C102", "title": "What hits on profiled and stochastic thin disks add to the requested quantities", "statement": "Each hit of a ray on a ThinDiskProfile or a StochasticThinDisk adds to every requested quantity what is emitted there, times the power of the redshift that belongs to the quantity; a null set of quantities is accepted; redshift and coordinates are filled whichever other quantities are requested; nothing else is changed. The default profile is the published one, positive and growing with the angle to the magnetic field; the parameters and names set are the ones read back.", "quantifier": "for every sequence of hits, emission, set of requested quantities, spectrometer and vector of parameters", "why_tests_cant": "Unboundedly many hits, a continuum of emissions and redshifts, and combinations of requested quantities that no example uses.", "anchors": ["lib/ThinDiskProfile.C:58-91", "lib/ThinDiskProfile.C:126-213", "lib/ThinDiskProfile.C:393-485", "lib/StochasticThinDisk.C:116-125", "lib/StochasticThinDisk.C:372-459", "lib/ComplexAstrobj.C:144-177"]}
{"id": "C103", "title": "The random waves of the stochastic thin disk", "statement": "The emission of a StochasticThinDisk with the equation Wave is a solution of the wave equation on the disk with unit speed, single-valued around the axis and zero on the outer edge at every date: the sum of 129 x 64 modes whose amplitudes, phases and wave numbers were drawn once, each in its own element of the tables. Intensities are never negative. The kinds of equation and motion set are the ones read back, and the ones read can be set.", "quantifier": "for every draw of the random generator, outer radius, position, date and sequence of property settings", "why_tests_cant": "A statement on second derivatives of a sum of 8256 modes for every draw; unboundedly many sequences of settings.", "anchors": ["lib/StochasticThinDisk.C:57-114", "lib/StochasticThinDisk.C:127-144", "lib/StochasticThinDisk.C:175-251", "lib/StochasticThinDisk.C:253-262", "lib/StochasticThinDisk.C:309-315"]}
{"id": "C104", "title": "A free star moves as it was told", "statement": "A FreeStar told an initial position, then a velocity slower than light, has a unit four-velocity with this velocity; the coordinates of its centre change uniformly from this position, the four-velocity is tangent to this path and stays that of an observer; the derivatives returned are those of the Cartesian position; position and velocity read back are those set; what is refused leaves the star as it was.", "quantifier": "for every metric, position, velocity and date", "why_tests_cant": "Every position, velocity and date of a continuum, with derivatives; undefined reads.", "anchors": ["lib/FreeStar.C:41-47", "lib/FreeStar.C:55-209"]}
{"id": "C105", "title": "A blob follows its path", "statement": "The centre of a Blob starts at its initial position and turns on a circle of the equator, on a cone with r^2 dphi/dt constant, or on a cylinder; the velocity at the centre is that of an observer who follows this path; a blob written to XML can be read back as it was.", "quantifier": "for every kind of motion, metric, initial position, velocity and date", "why_tests_cant": "Derivatives along a path at every date; every setting written and read.", "anchors": ["lib/Blob.C:41-71", "lib/Blob.C:161-205", "lib/Blob.C:800-895"]}
{"id": "C106", "title": "Where a plasmoid is, how fast it moves and how large it is", "statement": "The velocity returned at the centre of a Plasmoid is tangent to its path, helical or circular; its radius is RadiusMax, or grows uniformly from 0.4 since the initial date without exceeding RadiusMax; a plasmoid whose properties have been set can be drawn.", "quantifier": "for every metric, initial position, velocity, date and sequence of property settings", "why_tests_cant": "Derivatives along a path at every date; unboundedly many sequences of settings.", "anchors": ["lib/Plasmoid.C:45-53", "lib/Plasmoid.C:448-658"]}
{"id": "C107", "title": "The size of an inflating star", "statement": "The radius of an InflateStar is that of the star before the inflation, the final one after it, and changes continuously, uniformly and monotonically in between; a photon is inside if it is nearer to the centre than this radius at its own date; the emission times the volume does not change.", "quantifier": "for every date of start and end, radii and date", "why_tests_cant": "A statement on continuity and on every date and place.", "anchors": ["lib/InflateStar.C:70-139"]}
{"id": "C108", "title": "A thermal plasma emits light and absorbs it by Kirchhoff's law", "statement": "For a ThermalSynchrotron spectrum hot enough, in a field and seen across it: jnuCGS is positive and jQnuCGS is positive and smaller; the emission coefficients are those of a beam (Q^2+U^2+V^2 <= I^2); the absorption coefficient of each Stokes parameter times Planck's law at the temperature of the object is the emission coefficient, averaged over the directions or not; both versions of radiativeQ give the same intensities; with averaging the results are means over the directions of what the object gives at each of them, circular polarisation cancels out and the angle that was set does not matter and is kept; operator()(nu, op, ds) is what leaves a slab of depth ds.", "quantifier": "all temperatures, densities, fields, angles, frequencies, lists of frequencies and sequences of setters", "why_tests_cant": "Kirchhoff's law must hold for each of the infinitely many frequencies and temperatures and after any order of setters; tests render one image", "anchors": ["lib/ThermalSynchrotronSpectrum.C:42-88", "lib/ThermalSynchrotronSpectrum.C:99-295", "lib/ThermalSynchrotronSpectrum.C:371-546"]}
{"id": "C109", "title": "A power law of electrons emits and absorbs with the slopes of the theory", "statement": "For a PowerLawSynchrotron spectrum with index p > 1 between two energies, in a field and seen across it: emission and absorption are positive, j goes as nu^((1-p)/2) and B^((p+1)/2), alpha as nu^(-(p+4)/2) and B^((p+2)/2), the source function as nu^(5/2), the linear polarisation of the emission is (p+1)/(p+7/3); frequencies outside gamma_min^2 < nu/nu0 < gamma_max^2 are refused; the emission coefficients are those of a beam; both versions of radiativeQ agree and are defined together; with averaging the results are means over the directions and circular polarisation cancels out.", "quantifier": "all indices, energies, densities, fields, angles and frequencies", "why_tests_cant": "slopes are statements about all pairs of frequencies and fields; refused and undefined cases depend on index and energies", "anchors": ["lib/PowerLawSynchrotronSpectrum.C:33-38", "lib/PowerLawSynchrotronSpectrum.C:103-319", "lib/PowerLawSynchrotronSpectrum.C:321-456"]}
{"id": "C110", "title": "Thermal bremsstrahlung is continuous and absorbed by Kirchhoff's law", "statement": "For a ThermalBremsstrahlung spectrum, jnu and alphanu of radiativeQ are positive, their ratio is Planck's law at the temperature of the object whatever the order of the setters, jnu goes as the square of the density, and is continuous in frequency and temperature.", "quantifier": "all temperatures, densities and frequencies", "why_tests_cant": "Kirchhoff's law for all frequencies; a jump of the Gaunt factor at h nu = k T is between any two sampled frequencies", "anchors": ["lib/ThermalBremsstrahlungSpectrum.C:41-69", "lib/ThermalBremsstrahlungSpectrum.C:87-164"]}
{"id": "C111", "title": "Coefficients become the intensity and the transmission of a uniform slab", "statement": "The last loop shared by the radiativeQ of SphericalAccretion, Blob, Plasmoid, FlaredDiskSynchrotron, Jet, PolishDoughnut and Torus turns the emission and absorption coefficients j, alpha and a length s into Inu and Taunu that solve dI/ds = j - alpha I, dT/ds = -alpha T with I = 0 and T = 1 at s = 0, the only such pair; cutting a path in two and combining the parts as the integrator does gives the same; the intensity is at most j s and at most j/alpha; it is continuous where alpha vanishes; finite results are returned.", "quantifier": "all coefficients, lengths and ways to cut the path", "why_tests_cant": "an identity between all lengths and all cuts, and a limit where the code changes its formula", "anchors": ["lib/SphericalAccretion.C:239-249", "lib/Blob.C:510-520", "lib/FlaredDiskSynchrotron.C:671-682", "lib/Jet.C:397-407", "lib/Plasmoid.C:289-299", "lib/PolishDoughnut.C:872-882", "lib/Torus.C:233-243"]}
{"id": "C112", "title": "The spherical accretion flow falls freely from rest and shines as its laws say", "statement": "SphericalAccretion: in Kerr space-time, at any place off the horizons, getVelocity returns a unit vector with energy 1 and angular momentum 0 that points inwards and keeps the inclination; outside it points to the future and is the velocity of free fall, as in any static spherical attractive metric. Density and temperature are power laws given at the inner radius. radiativeQ returns, where the gas is hot and magnetised, B(T)(1-Taunu) and 0 < Taunu < 1 with self-absorption, j ds and 1 without; 0 and 1 where it is cold; and this does not depend on what was asked before. The gas is where r exceeds the inner radius.", "quantifier": "all spins, places, settings, frequencies, paths and histories of calls", "why_tests_cant": "free fall is an identity between derivatives at all places; history independence quantifies over all earlier calls", "anchors": ["lib/SphericalAccretion.C:60-131", "lib/SphericalAccretion.C:157-317", "include/GyotoSphericalAccretion.h:63-70"]}
{"id": "C113", "title": "The trace of a star is where the star was between two dates", "statement": "StarTrace: after any calls TMin() <= TMax(); both dates can be set from any state, and what is written to a file is what is read back. A point is inside, whatever its own date, exactly if it is less than the radius away from the place of an event of the orbit stored between the two dates, in Cartesian and in spherical coordinates, after any sequence of changes of the initial condition, the metric and its coordinates; so all points that would be inside the star at any date between TMin and TMax are in it.", "quantifier": "all dates, orbits, coordinates and histories of calls", "why_tests_cant": "the order of two setters and of the notifications of a metric, over all histories; a gap between stored events depends on the steps", "anchors": ["lib/StarTrace.C:37-62", "lib/StarTrace.C:118-241", "lib/Worldline.C:367-372", "lib/Worldline.C:413-517", "lib/Metric.C:146-150"]}
{"id": "C114", "title": "What electrons with a kappa distribution emit and absorb", "statement": "KappaDistributionSynchrotron: for an index above 2 all emission and absorption coefficients of I and Q are positive; the emission is less than, and tends to, a law nu^(1/3) at low and nu^(-(kappa-2)/2) at high frequencies, the absorption nu^(-5/3) and nu^(-(kappa+3)/2); a stronger field moves the whole spectrum. What is emitted is a beam of light (Q2+U2+V2 <= I2). Both versions of radiativeQ give the same intensities, each frequency by itself; the mean over the directions is that of what the object gives at each, without circular polarisation. The polarised version answers for the tabulated indices and sufficiently high frequencies, and otherwise throws.", "quantifier": "all objects, setter sequences, angles, temperatures, indices and lists of frequencies", "why_tests_cant": "limits, powers and gamma functions over continuous ranges; a fit that is right at a few points can break elsewhere", "anchors": ["lib/KappaDistributionSynchrotronSpectrum.C:35-86", "lib/KappaDistributionSynchrotronSpectrum.C:96-369", "lib/KappaDistributionSynchrotronSpectrum.C:371-505"]}
{"id": "C115", "title": "The equatorial hot spot shines as a Gaussian and beams as seen by its gas", "statement": "EquatorialHotSpot::emission is, with isotropic beaming, exp(-d^2/2s^2) of the distance d in the plane between the hit and the spot at the date of the hit, s being SpotRadSize, and zero from 4s on; it depends on nothing else. With normal (radial) beaming it is multiplied by the square of the cosine (of one minus the cosine) of the angle between the light and the normal to the plane, in the frame of the gas. getVelocity is the velocity of gas in circular orbit at the place of the hit. The spot is transparent. Beaming kinds are read back and the old XML tags select them.", "quantifier": "all spots, dates, hits, photons, frequencies, Kerr metrics of any spin and any stationary axisymmetric metric, all four beamings", "why_tests_cant": "The formulas hold at every point of a plane and for every direction of light; a test samples a few pixels. The error on photons that are too vertical only appears for hits off the centre's circle.", "anchors": ["lib/EquatorialHotSpot.C:55-78", "lib/EquatorialHotSpot.C:100-112", "lib/EquatorialHotSpot.C:183-245", "lib/EquatorialHotSpot.C:396-407"]}
{"id": "C116", "title": "A cell of polarised plasma sends light and lets light pass", "statement": "The polarised radiativeQ of Blob, EquatorialHotSpot, Jet, Plasmoid, SimBridge, Star and ThickDisk end with the same loop: from the coefficients of emission, absorption and rotation of a cell, the angle of the field and the length, it gives Stokes parameters and a transmission matrix. For matter that absorbs every kind of light the loop never stops with an error; what it adds is not more polarised than bright; what enters leaves as light and not brighter; so is what a whole ray receives. Cutting a cell in two changes nothing, and matter in thermal equilibrium leaves black-body light unchanged.", "quantifier": "for all emissions, absorptions, rotations, angles, lengths, numbers of cells", "why_tests_cant": "Reference images show a few plasmas; the statement is about all matrices and all lengths, and needs the invariance of a cone under a flow.", "anchors": ["lib/EquatorialHotSpot.C:367-392 loop", "lib/Blob.C:769-797", "lib/Astrobj.C:706-882 Omatrix, Pmatrix", "lib/Astrobj.C:998-1016 rotateJs"]}
{"id": "C117", "title": "The angle of light with the magnetic field is that of the frame of the emitter", "statement": "get_theta_mag gives the angle between the direction of the light and the spatial part of the field for the observer with the 4-velocity given, whatever the strength of the field, its part along the velocity, the energy of the light and the normalisation of the velocity; reversing the field gives the supplement; a field along the velocity gives no number. The equatorial hot spot with a vertical, radial or toroidal field uses the normal to the plane, the direction away from the centre or the direction of the rotation; its thermal electrons have the density, temperature and angle of the place, reach 2.4 sizes from the centre, and beyond nothing is emitted and everything passes; an unknown configuration is refused. Not so: around a centre that rotates the toroidal field is not orthogonal to the velocity, and close to it it is not a number; light along the field is an error.", "quantifier": "all Lorentzian metrics, observers, light rays and fields; all stationary axisymmetric metrics outside a horizon; all positions, frequencies and earlier settings of the spectrum", "why_tests_cant": "an angle that is wrong by the aberration, or the sign of the field, changes the polarisation smoothly; the NaN appears only for some orbits inside a few gravitational radii of a rotating hole", "anchors": ["lib/Astrobj.C:672-690", "lib/EquatorialHotSpot.C:247-393"]}
{"id": "C118", "title": "The jet is the sheath between its two walls, with the density given at its base", "statement": "A Jet is the set of points beyond JetInnerRadius between the two parabolic sheets, or between the two cones, in either hemisphere and in spherical or Cartesian coordinates. Setters that throw nothing leave the two parameters in order, and the fraction Alpha stays in [0,1]. The density goes as the inverse square of the distance to the axis and, for parabolic walls, is the one given where the outer sheet meets the sphere of the base; the temperature is the one given at the inner radius and a power of the radius. Not so: a refused parameter is kept; the order of the setters matters; walls that are not given make a jet that is nowhere, without error; an outer angle beyond 90 degrees selects the funnel instead of the sheath; for conical walls the density at the base is the one given divided by the squared cosine of the angle.", "quantifier": "all parameters, positions, kinds of coordinates and sequences of setters", "why_tests_cant": "the density of a conical jet is wrong by a few percent for the usual small angles, and an image does not show what the density at the base should have been", "anchors": ["lib/Jet.C:67-183", "lib/Jet.C:264-291", "lib/Jet.C:412-485"]}
{"id": "C119", "title": "The gas of the jet has the Lorentz factor given for observers without angular momentum", "statement": "getVelocity gives a unit vector towards the future whose Lorentz factor for the observer without angular momentum is GammaJet; its azimuthal speed is JetVphiOverVr times its radial speed for that observer; a conical jet moves away from the centre, or towards it below the stagnation radius and for inflow. Where the meridional planes are conformally flat the gas of a parabolic jet stays on the inner wall. Not so: around any Kerr black hole it leaves the wall; for inflow the ratio of the speeds has the opposite sign; a Lorentz factor below -1 gives a velocity towards the past; in Cartesian coordinates the jet flows along x everywhere.", "quantifier": "all stationary axisymmetric metrics outside a horizon, positions, Lorentz factors and ratios; Kerr of any spin", "why_tests_cant": "the code checks only the norm; a direction or a Lorentz factor that is wrong passes it", "anchors": ["lib/Jet.C:487-587"]}
{"id": "C120", "title": "The combined field of the jet is a unit vector between the parabolic and the toroidal field", "statement": "For MagneticConfiguration Combined the field is a unit vector, is in the frame of an emitter without motion in colatitude in a metric without rotation, and goes from the parabolic field for Alpha 0 to the toroidal one for Alpha 1. Not so: polarised and unpolarised computations do not use the same field, as the exponent of the parabolic field is 0.75 in one and 1 in the other.", "quantifier": "all circular metrics, emitters, positions and fractions", "why_tests_cant": "the two computations are never compared; both fields are unit vectors", "anchors": ["lib/Jet.C:318-339", "lib/Jet.C:680-712", "include/GyotoAstrobj.h:731"]}
{"id": "C121", "title": "A deformed torus has the shape and the motion announced", "statement": "A DeformedTorus at rest is the ellipse of semi-axes Beta LargeRadius over the epicyclic frequencies; the shears, translations and rotation keep the area of its section; the gas moves with the surface; the torus is bounded; the kind reads back as it was set and a refused Beta leaves the torus as it was.", "quantifier": "for every spin, radius, Beta, Eta, kind, date and place", "why_tests_cant": "Continuum of places and dates; derivatives along the motion of the gas.", "anchors": ["lib/DeformedTorus.C:33-66", "lib/DeformedTorus.C:109-168", "lib/DeformedTorus.C:200-261"]}
{"id": "C122", "title": "The gas of a deformed torus moves as an observer with the momentum of the centre", "statement": "The four-velocity of the gas of a DeformedTorus is a unit vector towards the future with the angular momentum per energy of the centre and the poloidal velocity of the deformation; at the centre it is the free circular orbit; the frequencies used are those of small oscillations about this orbit.", "quantifier": "for every spin, radius, deformation, date and place", "why_tests_cant": "Continuum of places; second derivatives of the metric.", "anchors": ["lib/DeformedTorus.C:116-120", "lib/DeformedTorus.C:170-281"]}
{"id": "C123", "title": "The modes of an oscillating torus are oscillations of a slender torus", "statement": "After an update that succeeds, the surface of an OscilTorus is an ellipse plus the intensity times an oscillation of the slender torus of the polytropic index (it solves the Papaloizou-Pringle equation with the pulsation used); the plus mode is slower and the breathing mode faster than the X mode; the pattern turns and repeats with the pulsation; without intensity the torus is the ellipse set by pressure and density; the kind reads back; parameters without such a mode are refused.", "quantifier": "for every spin, radius with stable orbits, positive index, kind, mode number, date and place", "why_tests_cant": "A partial differential equation over a continuum of places and parameters.", "anchors": ["lib/OscilTorus.C:77-100", "lib/OscilTorus.C:203-242", "lib/OscilTorus.C:314-344", "lib/OscilTorus.C:366-462"]}
{"id": "C124", "title": "An oscillating torus keeps no value of its former parameters", "statement": "The answers of an OscilTorus (surface and velocity) depend on its present parameters only, whatever the requests made before; a request that is refused leaves the torus as it was.", "quantifier": "for every sequence of requests of any length and every place", "why_tests_cant": "Unbounded histories of setters and of changes of the metric.", "anchors": ["lib/OscilTorus.C:68-75", "include/GyotoProperty.h:108-115", "lib/OscilTorus.C:346-364", "lib/OscilTorus.C:366-462"]}
{"id": "C125", "title": "The gas of an oscillating torus moves with its surface", "statement": "The four-velocity of an OscilTorus is a unit vector towards the future with the angular momentum per energy of the centre, along the gradient of the mode in the section; at the centre it is the free circular orbit for the modes that do not move it; at first order in the intensity the surface follows the gas.", "quantifier": "for every spin, radius, index, kind, intensity, date and place", "why_tests_cant": "Continuum of places; derivatives along the motion.", "anchors": ["lib/OscilTorus.C:203-312", "lib/OscilTorus.C:366-462"]}
{"id": "C126", "title": "The emission of an oscillating torus follows the table of areas", "statement": "The table has the lines of the file; the area is interpolated linearly between two dates; the emission is one over the area and has the period of the oscillation; positive areas give an emission; a copy is equal to the original.", "quantifier": "for every file, table, period and date", "why_tests_cant": "Unbounded tables and dates; end-of-file states of a stream.", "anchors": ["lib/OscilTorus.C:102-132", "lib/OscilTorus.C:163-194", "lib/OscilTorus.C:464-508"]}
{"id": "C127", "title": "The gas of the thick disk moves between a circle and a fall", "statement": "The velocity of a ThickDisk is that of an observer whose radial velocity and angular velocity lie, in the proportions given by VeloParam, between those of gas on a circle with the angular momentum rho^1.5/(rho+1) and those of gas falling from rest at infinity; values of VeloParam out of 0..1 are refused; the velocity is defined wherever the disk is, in all coordinates.", "quantifier": "for every spin, place outside the horizon and parameter", "why_tests_cant": "Continuum of places and parameters.", "anchors": ["lib/ThickDisk.C:79-184", "lib/ThickDisk.C:386-500"]}
{"id": "C128", "title": "The gas of the thick disk and its light", "statement": "The density of a ThickDisk is a power of the radius times a Gaussian of the height over the distance to the axis, its temperature a power of the radius, the field follows the magnetization; with self-absorption it shines as the fraction of a black body that does not pass it, without it lets all light pass; too thin gas is dark; nothing depends on earlier calls; both methods radiativeQ see the same gas and the same option.", "quantifier": "for every setting, place, list of frequencies and history of calls", "why_tests_cant": "Continuum of settings and places; unbounded histories.", "anchors": ["lib/ThickDisk.C:216-384", "lib/ThickDisk.C:568-788", "include/GyotoThickDisk.h:65-75"]}
{"id": "C129", "title": "The data of the flared disk stay consistent", "statement": "Whatever setters, arrays and files are given to a flared disk, in whatever order: the strength of its field always corresponds to its density, temperature and ratio of pressures; the arrays of density and velocity have the sizes of the grid; a well-formed file gives a consistent grid with the dates of the file; a translation in time moves the disk as a whole, so that what was at t is at t+d; a copy is equal to the original; getters give back what was given.", "quantifier": "all sequences of calls, all files and arrays, all translations", "why_tests_cant": "The state depends on the order of calls and on refused calls; tests load one file once and look at it once.", "anchors": ["lib/FlaredDiskSynchrotron.C:67-500", "lib/GridData2D.C:43-260"]}
{"id": "C130", "title": "The gas, the velocity and the light of the flared disk", "statement": "An event is inside the flared disk exactly when its distance to the axis is in the grid and its height is less than H/R times this distance, in both kinds of coordinates. Inside, the gas is polytropic, positive and nowhere more than the values at the maximum; its velocity is that of an observer with the tabulated dr/dt and dphi/dt; the tabulated field has the length given by the metric; the light is positive, part of what comes from behind is let through, and nothing depends on the calls made before.", "quantifier": "all disks, places, tables and frequencies", "why_tests_cant": "Real-valued laws over all places; the wrong length of the field only shows as a factor 1/r in the brightness.", "anchors": ["lib/FlaredDiskSynchrotron.C:502-747"]}
{"id": "C131", "title": "The parameters of the Polish doughnut and what is kept of them", "statement": "A Polish doughnut is described either by Lambda or by AngMomRinner; that which was set last is in force, is given back, and alone is written. At any time the angular momentum, the cusp, the centre, the potentials and the outer radius are those that the metric in force and the description in force give, whatever the order in which metric and parameters were set and however the metric was replaced or changed. A refused value leaves the object as it was.", "quantifier": "all metrics, all histories of calls", "why_tests_cant": "The histories are unbounded and the stale members do not show in an image of the usual order of calls.", "anchors": ["lib/PolishDoughnut.C:74-473"]}
{"id": "C132", "title": "The shape and the motion of the Polish doughnut", "statement": "A point is in the doughnut exactly when it is beyond the inner radius and the cusp, when gas can turn there with the angular momentum of the torus, and when its binding is above that of the surface; the velocity returned is that of this gas. In Kerr, for a spin of the sense of the torus and a parameter between 0 and 1, there are exactly two radii outside the smallest bound orbit at which the angular momentum is that of a free orbit, the object finds both up to the tolerance of its search, the potential in the plane of the equator has its minimum at the first and its maximum at the second, the torus is closed, and at both radii the gas is in free fall.", "quantifier": "all places outside the horizon, all spins, all angular momenta", "why_tests_cant": "Statements on a real domain of places, spins and parameters, with a uniqueness claim.", "anchors": ["lib/PolishDoughnut.C:191-310", "lib/PolishDoughnut.C:511-577", "lib/KerrBL.C:136-138"]}
{"id": "C133", "title": "The gas and the light of the Polish doughnut", "statement": "In a torus with a positive Beta the pressures of gas and field are in the equilibrium of Komissarov: their sum is two fifths of the enthalpy times the depth, their ratio follows the area, the gas is a polytrope with the values set at the centre, and the gradients of the two pressures balance that of the potential. In Kerr, everywhere inside a torus that fills its lobe, density, temperature and field are positive numbers. The field is at rest with the gas and has that strength; the light meets it at the angle the gas sees and light along the field is refused. A thermal torus sends out at each frequency that fraction of the light of a black body of its temperature that it absorbs, with or without bremsstrahlung, averaged over the directions of the field or not.", "quantifier": "all spins from 0 to 1, all places inside, all null momenta, all positive parameters, all lists of frequencies", "why_tests_cant": "Statements over continuous sets of places, momenta and parameters, and a differential identity.", "anchors": ["lib/PolishDoughnut.C:622-886", "lib/ThermalSynchrotronSpectrum.C:163-330", "lib/ThermalBremsstrahlungSpectrum.C"]}
{"id": "C134", "title": "The channels of the Polish doughnut", "statement": "Each spectral channel gets the sum of the trapezoids of the emission over as many equal parts of the channel as the oversampling says, whether or not the channels touch or overlap and in whichever order their ends are given; the emission is asked only for frequencies inside of the channels. With more and more parts this tends to the integral of a continuous emission over the channel.", "quantifier": "all lists of boundaries and channels, all emissions, all positive oversamplings", "why_tests_cant": "Unbounded numbers of channels and parts, and a limit.", "anchors": ["lib/PolishDoughnut.C:578-620"]}
{"id": "C135", "title": "The parameters and the metric of the second post-Newtonian hole", "statement": "The quadrupole of a Kerr2PN hole is minus the square of its spin whenever it is tied to it; a hole written to a file and read again is the same; the metric is that of a unit mass far away, its symbols of Christoffel are those of the metric, and the integration stops inside of the horizon with a margin.", "quantifier": "all sequences of setters, all positions, all spins", "why_tests_cant": "All histories of setters and all reals; the shape of the metric far away is an asymptotic statement.", "anchors": ["lib/Kerr2PN.C:30-148"]}
{"id": "C136", "title": "The light of the thin disks with a law of their own", "statement": "Whatever was set and evaluated before, a disk with a power law of the temperature sends at each radius the light of a black body at the inner temperature times the power of the ratio of radii, so that all radii send the same spectrum up to a factor on frequencies and its cube on intensities. A grid of temperatures sends black bodies. An iron line is a box of one hundredth of its frequency on each side, at the frequency that was asked in any unit, and carries a fiftieth of its frequency times the power of the radius. A bolometric disk adds over any succession of hits what an observer receives from the layers, with the fourth power of the redshift factor, and refuses everything else.", "quantifier": "all histories of setters and evaluations, all radii, frequencies and units, all lists of hits", "why_tests_cant": "Unbounded histories and lists of hits, integrals over all frequencies.", "anchors": ["lib/ThinDiskPL.C:55-93", "lib/PatternDiskBB.C:77-115", "lib/ThinDiskIronLine.C:41-115", "lib/DynamicalDiskBolometric.C:70-162"]}
{"id": "C137", "title": "The metric and the connection of one slice of a numerical metric", "statement": "For every circular slice with the fields that Lorene describes, christoffel is the Levi-Civita connection of gmunu, and so is each of its components asked for alone; gmunu_di is the derivative of gmunu with respect to the radius and the colatitude, gmunu_up its inverse and gmunu_up_dr the derivative of the inverse; lapse and shift of computeNBeta are those of gmunu.", "quantifier": "all circular slices, all positions off the axis", "why_tests_cant": "All smooth fields; a test needs files written by Lorene and compares a few points of one star.", "anchors": ["lib/NumericalMetricLorene.C:1046-1122", "lib/NumericalMetricLorene.C:1191-1236", "lib/NumericalMetricLorene.C:1272-1340", "lib/NumericalMetricLorene.C:1489-1862"]}
{"id": "C138", "title": "Motion and dates in a numerical metric", "statement": "The general branch of diff computes the 3+1 equations of motion in every slice, whatever its symmetries; solutions of the circular branch are geodesics of gmunu and both branches agree where both apply. With several slices, everything read from the metric is defined at each date, exact at the dates of the slices, continuous, exact for quantities that are polynomials of the date of degree three (one in the two outer intervals), and all the readers are consistent with one another at the date of the particle.", "quantifier": "all slices, states, lists of dates and dates", "why_tests_cant": "All fields and all dates; the theorem on geodesics quantifies over all solutions.", "anchors": ["lib/NumericalMetricLorene.C:454-846", "lib/NumericalMetricLorene.C:848-939", "lib/NumericalMetricLorene.C:1125-1189", "lib/NumericalMetricLorene.C:1239-1270", "lib/NumericalMetricLorene.C:1926-1949"]}
{"id": "C139", "title": "Circular orbits in a numerical metric and the matter of its star", "statement": "In the equatorial plane of a circular slice, circularVelocity is the velocity of an observer that moves around the axis in free fall, in the direction that is asked for; getSpecificAngularMomentum is -u_phi/u_t for it and getPotential minus the logarithm of |u_t|; where there is no such orbit slower than light both refuse. Between the dates of several slices the velocity is that of the interpolated metric. The velocity of the matter of a neutron star is a unit vector exactly where its factor of Lorentz is that of its field of velocities, and its energy for the observers of the slices is that factor.", "quantifier": "all circular slices, positions, directions and dates", "why_tests_cant": "All smooth fields; that the orbit is a geodesic is a statement on derivatives of the metric.", "anchors": ["lib/NumericalMetricLorene.C:349-420", "lib/NumericalMetricLorene.C:2019-2123", "lib/NeutronStar.C:101-157"]}
{"id": "C140", "title": "Arrays of a neutron star with an atmosphere", "statement": "Whatever is set, read from a file or copied, and in whatever order, the sizes of the intensities and of the three axes stay in step with the stored dimensions, no call reads beyond the array it is given, a copy has the same arrays, and a file that was written reads back identically.", "quantifier": "all stars, sequences of calls, arrays and files", "why_tests_cant": "All sequences of calls; the arrays are of any size.", "anchors": ["lib/NeutronStarModelAtmosphere.C:77-418", "include/GyotoNeutronStarModelAtmosphere.h:46-70"]}
{"id": "C141", "title": "Light of a neutron star with an atmosphere", "statement": "On the surface the star shines with the intensity of the table, interpolated in frequency, cosine and gravity between the corners of the cell and a thousandth of them, for the gravity that is the norm of the acceleration of the matter in cgs units and for the cosine of the angle of the light with it in the frame of the matter, a number from 0 to 1; outside of the frequencies of the table and off the surface there is no light; a gravity outside of the table is refused; the samples are those that the header documents.", "quantifier": "all valid tables, frequencies, cosines, gravities, metrics of a rotating star, velocities and photons", "why_tests_cant": "All tables and all places in a cell; the angle is a statement on all metrics and photons.", "anchors": ["lib/NeutronStarModelAtmosphere.C:420-496", "lib/NeutronStarModelAtmosphere.C:498-782", "include/GyotoNeutronStarModelAtmosphere.h:50-56"]}
{"id": "C142", "title": "Thick disks read from a series of grids", "statement": "The emission, the transmission and the velocity of a DynamicalDisk3D at any date are those of the files, interpolated linearly between the dates of two files and constant before the first and after the last; they do not depend on earlier calls. The velocity is a unit vector at each date. Emission and absorption coefficients follow the synchrotron power laws of the index, the transmission is between 0 and 1, and where the disk emits nothing it lets light pass; light emitted along a step does not depend on how the step is split.", "quantifier": "all series of grids, dates, places, frequencies and lengths of steps", "why_tests_cant": "All dates and all sequences of earlier calls; the laws hold for all indices and frequencies.", "anchors": ["lib/DynamicalDisk3D.C:54-71", "lib/DynamicalDisk3D.C:148-211", "lib/DynamicalDisk3D.C:213-468", "lib/DynamicalDisk3D.C:603", "lib/Disk3D.C:124-177"]}
{"id": "C143", "title": "Objects read from simulations: settings, dates, tables, motion and shape", "statement": "For SimBridge and SimThickDisk: what boundaryConditions() returns can be given again to any object, which then has the same five conditions, and whatever is given the five conditions stay non-empty words; the emission type read back can be given again; a date in the simulation falls between the dates of the two files read; a table is declared present exactly when the file has it; a file of coefficients has one value per cell and frequency and is read inside its bounds; below the last stable orbit the matter has a four-velocity of norm -1, unit energy and no angular momentum; every place of the grid is inside the disk.", "quantifier": "All strings, all lists of dates and all dates, all sets of tables in a file, all metrics that mix only the date and the azimuth, all places and grids.", "why_tests_cant": "Strings, dates, sets of tables and metrics are unbounded; the failures (first date, one absent table, two frequencies, the kind BB) need particular inputs that the examples of the project do not use, and no file of simulation comes with the tests.", "anchors": ["lib/SimBridge.C:186-286 (filename)", "lib/SimBridge.C:342-385 (boundaryConditions, emissionType)", "lib/SimBridge.C:387-730 (radiativeQ)", "lib/SimBridge.C:831-868 (getVelocity)", "lib/SimBridge.C:976-992 (getIndex)", "lib/SimThickDisk.C:73-116"]}
{"id": "C144", "title": "The metric of a rotating star: connection, geodesics and steps", "statement": "For RotStar3_1 with any fields of Lorene: christoffel returns the Christoffel symbols of gmunu; the four-dimensional diff is the equation of geodesics of these symbols; a solution of the 3+1 equations of the six-dimensional diff is a geodesic of gmunu with the date as parameter; Normalize4v sets the two constants of motion exactly and leaves the radial and polar velocities, and a velocity normalised with its own constants is unchanged; the next step is between delta_min and delta_max, at most the step asked for and at most delta_max_over_r times the radius.", "quantifier": "All fields with derivatives that do not depend on the longitude, all places off the axis, all velocities, all solutions, all settings of the steps.", "why_tests_cant": "The fields come from files of an external library that no test of the project has; the identities hold between functions of many real variables.", "anchors": ["lib/RotStar3_1.C:138-308 (diff)", "lib/RotStar3_1.C:366-551 (myrk4_adaptive)", "lib/RotStar3_1.C:553-639 (Normalize4v)", "lib/RotStar3_1.C:641-672 (gmunu)", "lib/RotStar3_1.C:674-765 (christoffel)", "lib/Metric.C:164-176 (deltaMax)"]}
{"id": "C145", "title": "The Keplerian motion in flat space", "statement": "With Keplerian set, the equation of motion that Minkowski gives for a massive particle is Newton's law d²x/dt² = -x/r³ written with proper time: Newton's angular momentum and energy are constant along every motion, a velocity of norm -1 keeps this norm, a circular motion is one when the square of its angular velocity is the inverse of the cube of its radius, and the spherical and Cartesian forms of the law describe the same motions; the law is refused at the centre and nowhere else. The frame of a Keplerian observer is orthonormal, with the velocity of that circular motion.", "quantifier": "for every state and every differentiable curve of states obeying the law, every proper time; every position of the observer", "why_tests_cant": "conservation along all motions and the agreement of the two systems of coordinates are statements on every initial condition and every time, where a test follows a few orbits in one system of coordinates with the errors of the integrator", "anchors": ["lib/Minkowski.C:182-221", "lib/Minkowski.C:231-379", "lib/Metric.C:560-568", "lib/Metric.C:755-768"]}
{"id": "C146", "title": "The illumination of a disk under a lamp", "statement": "XillverReflection places the lamp at any date by its uniform motion: the azimuth from the lamp is in [0, 2π] and equals the azimuth of the disk minus that of the lamp up to turns. The illumination is the mean of the four values of the table around the place, the azimuth after the last being the first one a turn later, so a table without negative values gives none. The spin in the period of the lamp is always that of the metric.", "quantifier": "for every lamp, date, azimuth, radius and table with increasing axes; every sequence of calls on the object and on the metrics", "why_tests_cant": "the intervals of azimuth where the index and the value come from different turns, the dates of origin of both signs and the refused metrics are cases of a continuous domain or of sequences of calls that a few rendered images do not visit", "anchors": ["lib/XillverReflection.C:152-180", "lib/XillverReflection.C:371-391", "lib/XillverReflection.C:784-821", "lib/XillverReflection.C:823-898", "lib/XillverReflection.C:91-128"]}
{"id": "C147", "title": "The reflected spectrum of a disk under a lamp", "statement": "XillverReflection reads its reflection table in all the closed domain of angles and ionizations and between its frequencies: the intensity is the mean of the eight values around (frequency, angle, ionization) converted to SI; below the first and above the last angle, the mean of the four values at this angle. The values are those that the documented layout of the array, double[nxi_][ni_][nnu_], places there. Out of the ionizations or of the frequencies an exception, never a value.", "quantifier": "for every table with increasing axes and the announced size, every ionization, angle and frequency", "why_tests_cant": "the first angle and the first ionization are isolated points, and a transposed array gives a plausible spectrum; only a proof for every table tells them apart", "anchors": ["lib/XillverReflection.C:743-782", "lib/XillverReflection.C:908-998", "include/GyotoXillverReflection.h:56-61"]}
{"id": "C148", "title": "The polarization basis of a photon", "statement": "Worldline::checkBasis and the correction of the integrator (IntegState::Boost::reorthonormalizeBasis) keep the position, make a photon out of tolerance null by the smallest change of its time component, leave a state within the tolerance as it is, and return, when they return normally, a basis (Ephi, Etheta) within the tolerance: orthonormal and orthogonal to the photon, Ephi and Etheta each in its place. KerrBL::nullifyCoord is the generic one on its metric.", "quantifier": "for every metric, state of sixteen numbers and tolerance", "why_tests_cant": "a correction that is computed on copies and passes its own check changes nothing visible in a run that does not look at the state afterwards; two exchanged vectors still are an orthonormal basis", "anchors": ["lib/Worldline.C:1635-1715", "lib/WorldlineIntegState.C:431-486", "lib/KerrBL.C:1238-1256", "lib/Metric.C:214-229"]}
{"id": "C149", "title": "The magnetic field of the ipole formalism", "statement": "Generic::computeB4vect_ipole gives, in the coordinates of Boyer and Lindquist, a vector orthogonal to the velocity of the emitter, hence spacelike when it is not zero; up to a factor and to the velocity it is the azimuthal direction (Toroidal), the radial direction of Kerr-Schild (Radial), or the vertical direction (Vertical). Other names are refused.", "quantifier": "for every spin, place of positive radius, unit velocity and name of configuration", "why_tests_cant": "orthogonality goes through two changes of coordinates, three metrics and a lowering of indices; a sign or a factor wrong in any of them changes the polarization by a small angle", "anchors": ["lib/Astrobj.C:1471-1616", "lib/Blob.C:646-679"]}
{"id": "C150", "title": "The settings and the copy of numerical metrics", "statement": "A NumericalMetricLorene holds the tables of the settings that it shows, a setting that is refused leaves the object as it is, and clone() gives a metric with the same settings, among them the mass and the steps of every metric.", "quantifier": "for every sequence of calls of setters, accepted or refused, and every copy made after it", "why_tests_cant": "a copy with another mass is made only by the threads of a computation and by copies of photons; the default mass of tests is the one that the copy gets", "anchors": ["lib/NumericalMetricLorene.C:105-139", "lib/NumericalMetricLorene.C:1951-2017", "lib/Metric.C:86-112", "lib/Worldline.C:92"]}
