# Formal model of Colloids (C++): design

## Goal and method

Each C++ function of interest is rewritten as a small total Lean function with the same
loops and the same order of side effects. The user-level properties of
`properties.jsonl` are proved about these functions for all inputs.

* `lean/Verif/<Area>/Model.lean` (and other `*Model.lean`): the transcription. Every definition
  cites file and lines in `/repo` and says where it is simplified.
* `lean/Verif/<Area>/Spec.lean`, when useful: a small specification vocabulary that does not use the
  model.
* `lean/Verif/<Area>/*Lemmas.lean`: helper lemmas.
* `lean/Verif/<Area>/*Props.lean`: the property theorems `Cnn_...`, with an `example` that meets
  the hypotheses beside each.

Names of theorems:

* `Cnn_xxx`: proved as claimed.
* `Cnn_xxx_partial`: proved under hypotheses that the claim does not have. What is missing is said in
  the docstring and in `MANIFEST.json`.
* `Cnn_xxx_counterexample`: the code does not do what is claimed. A witness or a general theorem.

A property is `proved` in the manifest when no part of its statement is missing or false.

### Conventions of the model

* **Outcomes.** `R α = Except Fault α`. Out-of-range access, dereferencing `end()`, `front()` of an
  empty container, reading an uninitialised variable, conversion of a negative or too large
  floating point number are `Fault.ub`. Loops that never end are `Fault.diverge` (with
  fuel). C++ exceptions are `trajError`, `invalidArgument`, `outOfRange`, `logicError`. A theorem that
  says that a function does not go wrong says that it is `ok`.
* **Numbers.** `double` and `float` are an arbitrary linear ordered field `G`, or ℚ, or ℝ and ℂ where roots,
  logarithms and exponentials are needed. Rounding is outside of the model. NaN and infinities are
  modelled where the code can make them by a division by zero or the root of a negative number
  (`Option`, `Ext`).
* `size_t` is `Nat`, with an explicit wrap-around where the code relies on it or is hurt by it; `int`
  likewise.
* **Containers.** `std::vector`, `deque` and `list` are `List`. `std::set` and `std::map` are sorted lists.
  `std::multimap` insertion is stable (C++11). `std::sort` is any sorted permutation, or a stable sort where
  the container is. `boost::bimap::insert` ignores an insertion that conflicts on either side.
* **Heuristics** that only change the shape of the tree (choice of subtree, axis of the split, ties) are
  parameters constrained only by what the code guarantees; the theorems hold for all of them and are also
  instantiated with the heuristics of the code.
* **Libraries** (OpenCV, FFTW, tinyxml, streams of numbers) are parameters or are replaced by what their manuals
  say they compute; see the table of coverage.
* **Parallelism.** OpenMP loops are modelled sequentially in most files. `Verif/Parallel` models them as threads whose
  loads and stores interleave (C134 to C138): it tells which loops always give the sequential result and what the others
  can give. The division between threads of the blur along Z is modelled with C71. Loads and stores are atomic and seen at
  once by all the threads, though C++ gives no meaning at all to a program with a race.

## Trusted base

* The Lean 4.33 kernel, and Mathlib's definitions used in statements (ordered fields, finite sums, ℝ, ℂ,
  roots, logarithms, exponentials, the Fourier transform on `ZMod n`).
* Axioms: at most `propext`, `Classical.choice`, `Quot.sound`; the list per theorem is at the end. No axiom of
  our own, no `sorry`, no `native_decide`, no `bv_decide`. `decide +kernel` is used for witnesses of
  counterexamples, for examples and for two complete finite tables (C38, C56).
* The transcription from C++ to Lean, checked by reading only.
* The conventions above.

The theorems were tested against wrong programs: `seeded/LOG.jsonl` lists the edits of the model and the
theorems that they break.

## Coverage

| file | modelled | not modelled |
|------|----------|--------------|
| lib/traj.hpp, traj.cpp | `Traj`, `TrajMap`, `TrajIndex`, text streams, spans | signs and overflow when numbers are read |
| lib/index.hpp, index.cpp | `BruteSpatialIndex`, `RStarIndex_S`, `TreeIndex_T`, `getInside`, translation, spatio-temporal queries and slices over an abstract index | `sliceIndex`, which cannot be instantiated |
| lib/RStarTree (R* tree) | insertion with splits and reinsertion, queries, removals, translation | `RemoveItem` (does not compile), memory management |
| lib/particles.hpp, particles.cpp | constructors, neighbour searches and lists, cuts, selections, translation, scaling, DAT files, bond orders of sets, RDF, density, 1551/2331/SP5c structures, second shells, VTK export, angular distribution, correlation of bond order | mean angular distribution, getMinDim, getVF |
| lib/periodic.hpp, periodic.cpp | minimal images, distances, enclosure, neighbours, radial distribution |  |
| lib/boo_data.hpp, boo_data.cpp | storage, products, invariants, Wigner 3j table, files, spherical harmonics, rotations and reflections | boost (replaced by the definition of spherical harmonics) |
| lib/fields.hpp, fields.cpp | `DynamicField` | second constructor |
| lib/files_series.* | `FileSerie`, `TokenTree` patterns | file system |
| lib/dynamicParticles.* | linking, drift, MSD, NGP, scattering functions, lost neighbours, cages, averages, bounds, bond order over time, trajectory files, files of `exportDynamics` | other export wrappers |
| lib/dynamicClusters.* | `assign`, `bounds`, `getLargestDelta`, `save` | `getLabels` (commented out) |
| multiscale/src/traj.* | all |  |
| multiscale/src/center.hpp | overlap removal | random access of Center coordinates |
| multiscale/src/reconstructor.* | links, clusters, splitting, blobs | `get_blobs` calls the 1D finder as a parameter |
| multiscale/src/octavefinder.* | local minima in 1, 2, 3 dimensions, window of planes, subpixel and scale, Gaussian response, blur along Z, `drawsphere`, `volume_shrink`, `seam_binary`, cache of kernels, iterative radii and sizes, memory of the 3D finder, preblur | the filters of OpenCV, subpixel intensity in one dimension |
| multiscale/src/multiscalefinder.* | sizes of octaves, downscale, upscale, coordinates, loop over octaves, checks of `fill` | memory layout of the images |
| multiscale/src/lifFile.*, graphic/lifFile.* | reader of blocks, dimensions, sizes, offsets, time stamps, voxel sizes | XML parser, interactive choices |
| multiscale/src/locatorfromlif.* | all, the finder being a parameter |  |
| multiscale/src/deconvolution.* | all but the windowed spectra | FFTW (replaced by the sums it computes) |
| graphic/tracker.*, serieTracker.* | storage of the image, masks, pixel centers, centroids, subpixel positions, automatic threshold, intensities, iteration, names of the series | FFTW, display, loading of images |
| graphic/lifTracker.*, radiiTracker.* | iteration over time steps, neighbourhoods, profiles, radii | smoothing by FFTW |
| mains/all_bonds.cpp, bonds.cpp | the whole programs on a disk | threads, printing of the numbers of the distribution, the assertion on the extension |
| mains/g6.cpp, avpos.cpp, boo.cpp, boo_flip.cpp, sp5c.cpp, linkboo.cpp, totalRdf.cpp, cgVoro.cpp | what they compute (rings, bond length, mean distribution, coarse grained volumes, outsides), the text of Voro++, files `.cloud`, names of files of `boo` and `boo_flip`, series of `periodic_boo` | arguments, other names of files, Voro++ |
| mains/dhlngb.cpp, lostngb.cpp, cage2vtk.cpp, traj2vtk.cpp | neighbours lost, loadTau, export_jump, unit volume, averages over time, the main of traj2vtk after the reading of the trajectories | the rest of the main of cage2vtk, the reading of the volumes files |
| OpenMP loops | `Binner`, `getDrift`, `getMSD`, `get_MSD_NGP`, `operator+=`, `DynamicField::push_back`, `link`, names of files, centers of a volume | weak memory, the progress bars, loops over frames that build an index each |
| mains/MSD.cpp, ISF.cpp, drift.cpp, dynamics.cpp, percolation.cpp, cutter.cpp, dat2vtk.cpp, linker.cpp, rdf.cpp | the whole `main` after the parsing of the command line | `atoi`, boost::program_options, printing of numbers |
| multiscale/main.cpp | the whole `main` after the parsing of the command line and the choice of the series, the finder being a parameter | boost::program_options, printing of numbers |
| python/colloids/particles.py | classes `Linker` and `Grid`, bonds, neighbours, overlaps, radial distributions, links, `link_save`, two body entropy, windows | numpy and scipy themselves, races of threads, other functions with code for weave, spherical harmonics |
| python/colloids/periodic.py | `periodify`, `periodic_dist`, `get_displ`, `remove_drift`, `msd`, `ngp`, `self_isf`, `overlap`, `get_N_ngbs`, `loadXbonds`, `get_rdf`, `get_mono_rdf`, `get_binary_rdf`, `get_space_correl`, `get_space_correl_binary`, `generate_kvec`, `get_Sq`, `generate_kvec_rect`, `rectangular_Sq` | `grv2vtk`, races on the counters |
| python/colloids/experiment.py | reading of trajectory files, names, what the constructor guesses, `p2tr`, `load_all`, densities, `Experiment.msd`, `broken_bonds`, `neverreform`, `never_closer`, `neighbouring_bonds`, `find_peak_mins`, `envelope`, `get_nb`, `g6`, `g6_envelope`; class `Txp`: constructor, drift, `msd`, `nonGaussian`, exports, `load_bonds`, selections, `time_correlation`, `get_clusters`; `bond_life`, `bond_last`, `traj_crea_dest`, `vtk_tracking`, `dilate`, `average`, `get_Brownian_corr`, `MSD_twopoint`, `Txp.get_Nb_density`, `mean_V`, `get_VF`, `get_tau`, intervals of ageing, command lines of external programs | fits, plots |
| python/boo/boo.py | everything | scipy (spherical harmonics by their definition, kd-tree as a parameter), numba, rounding |
| python/colloids/phase.py | everything but `qR2q` and the default pressures of `all_coexistence` | convergence of `fsolve`, error of `quad`, rounding |
| python/colloids/track.py | conversions of scales, analytic blurs, `global_rescale_intensity`, `global_rescale`, `solve_intensities`, `draw_spheres`, `draw_rods`, clusters, the three finders, `local_disp`, `LocalDispl`, `elongated`, `readTIFF16`, `find_blob`, `save_2Dcenters`, `clusters2particles`, `load_clusters` | deconvolution, `first_layer`, sub-pixel method 0, other readings of images |
| python/colloids/microrheology.py | everything | rounding, `np.polyfit` as a parameter |
| python/colloids/phaseCorrelation.py | `phaseCorrel`, displacements, windows, coordinates | window functions, display, `get_phaseshift`, rounding of the FFT |
| python/colloids/ddm.py | everything but `readImages` | rounding of the FFT |
| python/colloids/voro.py | `load_vorobonds`, `get_second_outside`, `cgVolume`, `volume`, `faces`, `make_bond_network` | voro++ itself, names and removal of files |
| python/colloids/vtk.py | `Polydata` (save, load, averages), `spatialCorelation` of a scalar field, `export_structured_points`, `clustersize` | `Dynamo2vtk`, digits of numbers |
| python/colloids/lif2vtk.py | the loop on the frames | the choice of the series, title and spacing |
| python/colloids/clouds.py | names, selection and subsets of `draw_cloud` | histograms and plots |
| python/colloids/track_orange.py, count_nuclei.py, spectrum.py | names of the series | treatment of the images |
| python/colloids/track_droplet.py | trajectories that end and start, names of the series | detection of droplets, phase correlation, files, links across two steps (`Linker.update` is in C148) |
| python/colloids/povray.py | `File`, `Vector`, `Item`: writing and `append` | `exportPOV`, `__setitem__` and `__getitem__`, texts of numbers |
| python/colloids/colors.py | all | images as arrays |
| python/colloids/lif.py | reading of the blocks, series, time stamps, frames, slices, choices, neighbourhoods and profiles, `getDisplacements2D`, the points of `getVTK` | radius from a profile, XML parsing, text of the header of `getVTK`, display, results of `np.fromregex` |
| python/colloids/statistics.py | everything but plots | `timecorrel` of real numbers, Fourier transforms and windows, complex values of `space_correlation`, edges made by numpy |
| graphic/mains/tracker.cpp, graphic/radiiTracker.cpp:182-283 | the three modes on a disk, the configuration | boost::program_options, wisdom of FFTW, display, XML header, the choice of the series, getRadii |
| python/colloids/progressbar.py | `ProgressBar` in a terminal | notebooks |
| other mains/*, other graphic/mains/*, liveTrack/*, other python/* | nothing | all |

## Properties: what is modelled and how it is proved

| id | status | modelled | proof |
|----|----|----------|-------|
| C01 | proved | `TrajMap` constructor, `push_back`, `getFrameSizes` | invariant by induction on the history of frames |
| C02 | proved | `TrajMap::push_back` | invariant of the insertion loop over the candidates sorted by distance; the result is the stable greedy matching |
| C03 | proved | `TrajIndex(TrajMap)`, `makeInverse`, conversions | refinement of the map by the index, induction on frames |
| C04 | partial | stream operators on lists of characters | round trip by induction on the list of trajectories |
| C05 | partial | `Traj` with wrapping `size_t` | case analysis |
| C06 | proved | multiscale `TrajIndex::add_Frame` | invariant by induction on the history of calls |
| C07 | partial | both `add_Frame` | exact outcome of each call |
| C08 | partial | multiscale `Traj` | case analysis |
| C09 | proved | `growCluster`, `segregate`, `segregateAll` | invariant of the depth first search; equality with the classes of reachability |
| C10 | proved | `Bond` and its text | order and set laws, round trip on characters |
| C11 | proved | `ngb2bonds`, `makeNgbList(BondSet)` | round trips |
| C12 | proved | R* tree: insertion, overflow, split, reinsertion | structural induction for any heuristic, then for the heuristics of the code |
| C13 | partial | tree and brute queries | the boxes of nodes contain the items; structural induction |
| C14 | partial | same, with depth and fan-out | invariant over histories |
| C15 | partial | `Remove`, `RemoveBoundedArea` | permutation of contents |
| C16 | proved | translation of indices | structural induction; exact arithmetic |
| C17 | partial | `RStarTree::getOverallBox`, `BoundingBox::reset`, `stretch` | induction on insertions |
| C18 | partial | `getInside` | case analysis per axis |
| C19 | proved | `Particles::getEuclidianNeighbours`, `selectEnclosed`, index of the set | refinement to a linear scan, with either index |
| C20 | proved | `makeNgbList` | from C19 |
| C21 | proved | `getNearestNeighbour` | doubling range: Archimedean termination, then minimality |
| C22 | proved | `cut` | invariant of the greedy loop |
| C23 | proved | `removeShortRange` | from C19 |
| C24 | proved | `operator+=` | from C16 |
| C25 | partial | `operator*=` | linear arithmetic |
| C26 | proved | `PeriodicParticles::periodify`, `getDiff` | ordered field reasoning per axis |
| C27 | proved | same | symmetry of the minimal image |
| C28 | partial | `selectEnclosed` with images | case analysis per axis |
| C29 | partial | `TreeIndex_T` | completeness by induction; soundness refuted |
| C30 | partial | `DynamicField::push_back`, `assign`, averaging | loop invariant on sums and divisors |
| C31 | partial | `removeOverlapping`, `removeOverlapping_brute_force`, `removeHalfOverlapping` | invariant of the greedy loop |
| C32 | proved | `Reconstructor::push_back`, `links_by_*` | invariant over histories of frames |
| C33 | proved | `split_clusters` | permutation of centers |
| C34 | partial | `links_by_RStarTree`, `links_by_brute_force` | both reduced to their relation of closeness |
| C35 | proved | binary streams of `BooData` | round trip on bytes |
| C36 | proved | `BooData` storage | index arithmetic |
| C37 | partial | `innerProduct`, `normedProduct`, `getSumNorm`, `getQl` | sums over m, Cauchy-Schwarz in ℂ |
| C38 | proved | `getW3j` | index arithmetic, complete finite table |
| C39 | partial | `FileSerie` | functions on lists of characters |
| C40 | partial | DAT and GRV files | round trip on tokens, given the printing of numbers |
| C41 | partial | `getDrift`, `removeDrift` | sums over spanning trajectories |
| C42 | partial | `getMSD` | sums, induction on starts |
| C43 | partial | `selectSpanning` | filter |
| C44 | proved | `getLostNgbs` | set difference |
| C45 | partial | `cages` of the trajectories | termination and loop invariant |
| C46 | partial | `initialize_binary` (1, 2, 3 dimensions) | the tests of a block are the strict comparisons with all the neighbours |
| C47 | partial | circular window of planes | modular arithmetic, invariant of the loop |
| C48 | partial | `downscale`, `upscale`, sizes, coordinates | closed form of each loop |
| C49 | partial | `LifSerie`: sizes, offsets, buffers | arithmetic modulo 2^64, file position as a state |
| C50 | proved | `getRdf`, `Binner`s | counting: histogram equal to the number of pairs |
| C51 | partial | `selectInside_noindex` | bounds by induction |
| C52 | proved | periodic neighbours | refinement to a linear scan on minimal images |
| C53 | partial | `split_clusters` cut points | closed form of the gradient |
| C54 | partial | `get_blobs` | index arithmetic; the 1D finder is a parameter |
| C55 | partial | `getInvarients`, `getWl` | sums with the 3j table; bound by Cauchy-Schwarz |
| C56 | proved | table of Wigner 3j | each of the entries compared to the Racah formula: equality of squares and signs in ℚ |
| C57 | partial | `getBOO`, `getBOOs`, `getSurfBOOs`, `getCgBOOs` | sums over neighbours |
| C58 | partial | `exportQlm`, `load_qlm`, `exportQ6m`, `load_q6m` | token lists |
| C59 | partial | `removeOutside` | merge of sorted lists |
| C60 | partial | `getNumberDensity` | bounds |
| C61 | partial | `velocities`, `getSD` | case analysis of the interval |
| C62 | partial | `getMSD` with non Gaussian parameter | closed form of the loops |
| C63 | partial | `getSelfISF`, `getISF` | closed form of the loops over ℝ |
| C64 | proved | `DynamicParticles::link` | C02 and C19 put together |
| C65 | partial | cages | counterexample |
| C66 | partial | `makeTimeAverage`, `makeSlidingTimeAverage` | closed form of the loops |
| C67 | proved | `getMaxBox`, `getMaxSimultaneousParticles`, indices bounds | folds of max |
| C68 | partial | drift files | loop invariant |
| C69 | partial | `spatial_subpix`, `scale_subpix` (1, 2, 3 dimensions) | ordered field reasoning |
| C70 | partial | `gaussianResponse` in 1D, 2D, 3D | closed form, reflected borders; in 3D nested folds over the kernel |
| C71 | partial | blur along Z, by thread | division of the columns between the threads |
| C72 | proved | sizes of the layers of an octave | logarithms in ℝ |
| C73 | partial | coordinates of octave 0 | counterexample |
| C74 | partial | `LifReader` constructor | round trip on bytes, for any number of blocks |
| C75 | partial | `parseTimeStampList` | lists |
| C76 | partial | `LocatorFromLif` | state machine; the 2D finder is a parameter |
| C77 | proved | `convolve`, lines of an image in any dimension | closed form of the nested loops, addresses to coordinates |
| C78 | proved | `Convolver::operator()` | discrete Fourier transform on `ZMod n`, Hermitian symmetry |
| C79 | partial | `get_spectrum_1d`, `get_deconv_kernel`, `set_hanning` | variance identity; C77 and C78; floor arithmetic |
| C80 | proved | `drawsphere` | loops that overwrite parts of a table |
| C81 | partial | `volume_shrink` | closed form of the nested loops |
| C82 | proved | `rotate_by_Pi`, `WignerD`, spherical harmonics | the tensors are homogeneous polynomials in two variables, on which rotations act by substitution |
| C83 | proved | `BooData(Coord)`, products, `getQl`, `isnull` | half turn that brings one bond on the axis z, then coefficient of order 0; Cauchy-Schwarz |
| C84 | partial | `reflect` | closed form of the two rotations on the polynomials |
| C85 | proved | `getFlipBOOs` | invariant of the loop over bonds |
| C86 | proved | `is_ring`, `get1551pairs` | invariant of the two loops; the graphs of five vertices of degree two are rings (all 1024 graphs) |
| C87 | proved | `get2331pairs` | invariant of the two loops |
| C88 | partial | `getSecondShell` | invariant of the two loops |
| C89 | partial | `getSP5c` | closed form of the two loops |
| C90 | proved | `assign`: populations, clusters, translation to trajectories | C09 on each frame, bijection between trajectories and positions |
| C91 | partial | `assign`: loop over time, over the model of `TrajMap` | refinement to a run of `TrajMap`, then C01-C03; sizes of unions and intersections |
| C92 | partial | `assign` from any former members | closed form of the loops |
| C93 | proved | `bounds`, `getLargestDelta` | induction on the members and on the clusters |
| C94 | proved | `save`, streams as lists of characters | induction on the text, bound on the number of labels by the number of positions |
| C95 | partial | `fillImage`, `fillImage_charToUchar`, `fillSlice`, `copyImage`, `unpad`, memory as a list | invariant on the rows copied |
| C96 | partial | `makeBandPassMask`, `makeLowPassMask`, `mirrorMask` | closed form of the loops, real arithmetic |
| C97 | partial | `findPixelCenters`, image and map as lists | invariant of the scan by flat positions |
| C98 | partial | `centroid` | closed form, exact arithmetic |
| C99 | partial | `getSubPixel`: histogram and search of the threshold, with fuel | counting of the classes, invariant of the search |
| C100 | partial | `getSubPixel`, `getIntensities` | order and membership through the sort and the filter |
| C101 | partial | `getNeighbourhood`, sizes of `getRadii` | floor arithmetic in ℝ |
| C102 | partial | `getRadius`, `resize`; the smoothing is a parameter | bijection between the pixels of the neighbourhood and of the image; counting by class; `partial_sum`, `min_element` |
| C103 | partial | constructor of `SerieTracker`, `boost::format`, strings as lists of characters | induction on the text of the format |
| C104 | partial | `LifTracker`, `TrackerIterator::operator*`; storage and tracking are parameters | refinement to the time step and parameters followed by the user, by induction on the operations |
| C105 | proved | `sp5c`, files as lists of bonds | path search by induction on the length; intersection of sorted lists |
| C106 | partial | search of the bond length in `linkboo`, `all_bonds`, `bonds`, with fuel | `max_element`, `min_element`; scaling invariance |
| C107 | partial | sum and mean in `linkboo`, `all_bonds`, `totalRdf`; files are a function | induction on the frames |
| C108 | partial | `get_cgVolumes`; queue with fuel; cells and volumes given | closed form of the sums; invariant of the queue; variant: length of the queue, rotated to a cell that is ready |
| C109 | partial | `getOutsides`, `print_bonds`; int to size_t conversion explicit | binary search on sorted rows, induction on the cells |
| C110 | partial | `dhlngb` main on the text of the bond files | round trip of the bond file, lists of neighbours as sorted sets, induction on frames |
| C111 | partial | `lostngb` main, `export_lostNgb` of `traj2vtk` | same; cardinalities of set differences |
| C112 | partial | `loadTau`, `std::upper_bound` of libstdc++ | loop invariant of the binary search |
| C113 | partial | `export_jump`; the cages are given | induction on the cages met along a trajectory; cells of different trajectories are disjoint by the inverse |
| C114 | partial | unit volume and division in `export_phi` | field arithmetic |
| C115 | partial | `getAngle`, `getAngularDistribution`; the angle of two directions is a parameter | fold of the pairs of neighbours over a table |
| C116 | partial | `GlBinner`, its `operator()` and `normalize`; sqrt and pi are parameters | fold of the pairs over two tables |
| C117 | partial | `toVTKstream`, `exportToVTK`, the two `operator<<` of fields, on characters; what `<<` writes for a double is a parameter | a reader of the format is the specification; words of a concatenation; inductions on particles, bonds and fields |
| C118 | partial | `seam_binary` in 1, 2, 3 dimensions, generic in the positions | fold invariants of the two loops; arithmetic of the overlap |
| C119 | partial | `get_kernel` with its map; `cv::getGaussianKernel` is a parameter | invariant of the cache over any sequence of calls |
| C120 | proved | `fill_iterative_radii` (2D and 3D), `get_iterative_radius`, `scale`, over the reals; filters are their radii | induction on the layers; monotonicity of exp |
| C121 | partial | constructor of `OctaveFinder3D`: addresses of images | arithmetic |
| C122 | partial | checks and plane accesses of `MultiscaleFinder::fill` | case analysis |
| C123 | partial | `preblur`, `set_deconv`, `load_deconv_kernel`, `set_halfZpreblur` | invariant over any sequence of settings |
| C124 | partial | both averages of `getSelfISF`, over the reals; sums as lists of options, `none` for NaN | fold over the starts, invariant for the undefined values |
| C125 | partial | `makeDynamics` for a set and for all the trajectories; not the text files | case analysis, from C63 |
| C126 | partial | text of the trajectory file, the names made by `linker`, the constructor that reads it; a file system as a function from names to contents; printing of doubles as a parameter | round trip on streams |
| C127 | partial | queries of an abstract index that answers exactly; the brute force index of the example satisfies it | order facts on intervals and boxes |
| C128 | partial | `makeBoo`, `makeSBoo`, bond order data as any module; the neighbours from the R*-tree (C19) | invariant over the selection |
| C129 | partial | the selection, the double loop and the rows of `g6`, mode 1; tensors and product are any type and function | double sums over pairs |
| C130 | partial | `calculateBoo` of `boo`, with the file of bonds as optional content, the index, both selections and the names; harmonics as any symmetric function | composition of C10, C11, C17, C18, C20, C51, C57, C59 |
| C131 | partial | a time step of `linkboo`, `set_difference`, the outsides of `cgVoro` | composition with C109; induction on the merge |
| C132 | partial | `main` of `avpos` between loading and writing | C41 and the invariant of C30, then sums over the times of the window |
| C133 | proved | the loop over the bonds of `boo_flip` | induction on the bonds, then C37 and C82 |
| C134 | partial | `Binner::operator<<` as threads that interleave loads and stores | invariant of the registers of the threads: each holds at most what the memory can have; explicit schedules for the counterexamples |
| C135 | partial | the parallel loops of `getDrift`, `getMSD`, `get_MSD_NGP` in the same way | the general theorems on racing additions, then C41, C42, C62 |
| C136 | proved | parallel loops whose iterations use disjoint cells | invariant: what a thread will do to its cells does not depend on the others |
| C137 | partial | `FileSerie::operator%` as three calls on a shared format, interleaved | invariant of the phases of each thread; explicit schedules for the counterexamples |
| C138 | partial | the pushes of centers in critical sections | invariant: what is pushed and what is pending is a permutation of what is found |
| C139 | partial | the loops over the arguments of `MSD`, `ISF`, `dynamics`, with the conversions to `size_t` | composition of C41, C42, C43, C124, C125 along the list of files |
| C140 | proved | the loop of `drift` | C41 and C43 at each time |
| C141 | partial | `main` of `percolation` from the film and the files of bonds to the files of clusters | C90 and C94 with the neighbours of each frame, C10 and C20 for these neighbours |
| C142 | partial | `main` of `cutter` on a disk: names of the two series, loading, cutting, writing | induction on the loop with the invariant that later inputs are not yet overwritten; C22, C23, C39, C40 |
| C143 | partial | `main` of `dat2vtk` on a disk | C10, C40, C117 and the columns of a cloud |
| C144 | partial | `main` of `linker` on a disk: the constructor from a series, displacements, links, file of trajectories | C64 (links), C126 (file of trajectories) and C39 (names); translation of positions for the displacements |
| C145 | partial | `main` of `rdf` and `periodic_rdf`, `getRdf` with the virtual functions of `PeriodicParticles` | C17 and C18 for the selection, C50 and C26 for the distances; induction on the selection for the periodic histogram |
| C146 | partial | `main` of `multiscale` on a disk and a series: choice of the deconvolution, loop, names, `getVoxelSize`, `getZXratio`; the finder and the kernel are parameters | induction on the loop; C31 (overlaps), C49 (offsets) and C39 (names) |
| C147 | partial | `main` of `all_bonds` and `bonds` on a disk: header of the file of trajectories, names, frames, file of the distribution, loop on the bonds | C39 (names), C50 (distribution), C106 and C107 (minimum, mean), C20 (neighbours), C10 (file of bonds), C126 (names of linker); induction on the loop |
| C148 | partial | class `Linker` of python/colloids/particles.py: all methods; the order of `np.argsort` is a parameter | closed form of the effect of a frame; greedy matching by induction on the order; refinement of `update` to two frames; C04 (file) |
| C149 | partial | `periodify`, `periodic_dist` with bounded loops, `get_displ`, squared displacements, `remove_drift` | bounds of the integer part; Archimedean descent for the first loop |
| C150 | partial | `msd`, `overlap`, `time_correlation`; `timecorrel` of complex numbers | closed form of loops that add to cells, induction; re-indexing of sums |
| C151 | proved | `get_mono_rdf` over the reals | C149 for each coordinate; closed form of the loops |
| C152 | partial | `generate_kvec`: loops, truncated square root, limit | invariant of the loops |
| C153 | partial | `main` of `tracker` on a disk: configuration, names, modes LIF (all steps, one step, radii) and series of images; the tracker and the measure of radii are parameters | refinement of the iterator (C104) along the loop, C39 (names), C40 (files); induction on the loops |
| C154 | partial | `get_bonds`, `bonds2ngbs_list`, `bonds2ngbs`, `ngbN2bonds` over the reals in any dimension; search and set order are parameters | invariant of the loops on the bonds; sortedness through the flattened loops |
| C155 | partial | `get_N_ngbs`: edge, search, sort, lines | specification of one line from the properties of argsort, then of all the lines |
| C156 | partial | `non_overlapping` and `non_halfoverlapping`: loops on a mask, distance as written | closed form of the loops; induction on the particles |
| C157 | proved | `get_rdf`: selection, search, binning | sum of contributions, then bijection with the set of pairs |
| C158 | partial | class `Grid`: numbering, filling, searches | mixed radix numbering is injective; invariant of the filling; nested products |
| C159 | partial | `Reader.__init__`, `getSeriesHeaders`, `getSeries` over bytes; the XML is a parameter | induction on the blocks; refinement to the model of the C++ reader |
| C160 | partial | `getTimeStamps`, `getRelativeTimeStamps`, `getTimelapse` with the attributes that the calls set | execution of sequences of calls |
| C161 | partial | `Serie`: shapes, `getOffset`, `getFrame`, `enumByFrame`, `enumBySlice`, `get2DSlice`; arrays in C order | Horner scheme of packed dimensions, induction on the dimensions and on the frames |
| C162 | partial | `chooseSerieIndex`, `chooseChannel`, `isPreview`; the answers are a list | induction on the answers |
| C163 | partial | `load_trajectories`, `nb_trajs`, `read_traj`, `read_pattern`, `enum` over characters | induction on lines; composition with the model of the C++ writer |
| C164 | partial | `p2tr` as writes in arrays | the last write at a place, with all the writes at different places; composition with C03 |
| C165 | partial | `load_all`, with the writes and the removal of the drift | loops of writes at independent places; telescoping sums |
| C166 | partial | `get_Nb_density`, `get_zPortion_Nbd`, one time step | extrema of lists; exact characterisation of the selection |
| C167 | partial | `Experiment.msd`, one interval | exact decomposition of the variance of all the components |
| C168 | partial | `Txp.__init__`, `read_trajs`, `read_pos` | arithmetic of windows; induction on trajectories |
| C169 | partial | `Txp.remove_drift` | telescoping sums of the means |
| C170 | partial | `Txp.msd`, `nonGaussian`, `self_isf` and the exports | loops of additions as double sums (as in C150) |
| C171 | partial | `broken_bonds` with its boolean arrays, `Txp.load_bonds` with its array of trajectories | loops of writes in arrays; membership in the sorted pairs |
| C172 | partial | `neverreform`, `never_closer`, `broken_bonds_path`, with a dictionary and shortest paths as a parameter | invariant of the dictionary over the times |
| C173 | partial | `neighbouring_bonds` | loops that append; membership |
| C174 | partial | `find_peak_mins`, with fuel | measure of the loop; the loop cannot reach the last value when the two last values are equal |
| C175 | partial | `cart2sph`, `vect2Ylm`, `single_pos2qlm`, `bonds2qlm`; `sph_harm` by the definition of its documentation | Cartesian form of the spherical harmonics; parity of the derivatives of the Legendre polynomials; `np.add.at` as a sum of contributions |
| C176 | partial | `coarsegrain_qlm` | `np.add.at` and `np.bitwise_and.at` as sums and conjunctions over the ends of the bonds |
| C177 | proved | `get_qlm`, `boo_product`, `abs2`, `ql` | sums over the orders folded by symmetry; Cauchy-Schwarz |
| C178 | partial | `get_w3j`, its two tables, `wl` | the table is compared with that of the C++ over the complete domain, which is proved in C56 to hold the Wigner symbols |
| C179 | proved | the same functions and those of lib/boo_data.cpp | equality of the coefficients, by parity at the poles; the addition theorem C83_addition; bilinearity of the product |
| C180 | partial | `gG_l`, the kd-tree being a parameter with a specification | sum over the pairs of the search as a sum over the shells |
| C181 | proved | the conversions and `logOnePlusX` | the error of the rational approximation has a rational derivative, bounded in the basis of Bernstein, then the mean value theorem |
| C182 | partial | `A` to `alpha`, `xp2th` | derivatives; comparison with the work of insertion of scaled particle theory, itself checked by Gibbs and Duhem |
| C183 | partial | the six classes, `numpy.poly1d` by lists of coefficients, `scipy.misc.derivative` by its finite differences | derivatives; homomorphism from lists to functions; bounds of the differences |
| C184 | partial | `mu_*`, `omega*`, `tointegrate`; `quad` is the integral | derivatives, fundamental theorem of calculus, explicit primitives |
| C185 | partial | `critical_point`, `spinodalGL`, `binodalGL`; `fsolve` and `fminbound` are parameters | equivalence of the equations with the vanishing derivatives; intermediate values for the existence of a critical point |
| C186 | partial | `coexistence`, `all_coexistence`, `triple`, `critical_end_point` | equivalence of the equations with equilibrium, for a solver that finds a root when there is one; bounds of pi and of the square root of two |
| C187 | partial | `all_GL`, `generate`, `numpy.linspace` | order of the pressures piece by piece; induction on the list that is followed |
| C188 | partial | the conversions, `G`, `DoG` and their derivatives; `erf` by its integral | the integral of the Gaussian over a ball, sliced in discs; derivatives; sign of the derivative of the response |
| C189 | proved | `global_rescale_intensity`, `global_rescale`; the solver is a parameter with a specification that is met | the loop over bonds builds the vector of slopes and its jacobian |
| C190 | partial | `solve_intensities` | the matrix built by the loop; bounds of the blur far from a ball |
| C191 | partial | `draw_spheres`, `draw_rods` on three dimensional masks | the voxels of the boxes, one particle after the other |
| C192 | partial | `split_clusters`, `label_clusters` | induction on the clusters to do, with the number of points as a measure; a labeller with a specification that is met |
| C193 | partial | `CrockerGrierFinder` in one and two dimensions, reflection at the edges as in `scipy.ndimage` | maximum of a fold; algebra of the parabola |
| C194 | partial | `OctaveBlobFinder` in two dimensions | minimum of a fold; a weighted mean is between its terms; variances of successive blurs add up |
| C195 | partial | `MultiscaleBlobFinder`, any dimension; the filter, the finder of an octave and `argsort` are parameters with specifications that are met | shapes halve along the list of octaves; invariant of the loop that removes overlaps; sums over repeated pixels |
| C196 | proved | `microrheology.py`: `logderive`, `msd2G`, with real numbers and the Gamma function; `np.polyfit` is a parameter with a specification that is met | a weighted sum of squares that is zero determines a parabola on three points |
| C197 | partial | `log_msd_vs_tau`; rounding and `np.unique` are parameters with specifications that are met | bounds of a rounded geometric series |
| C198 | partial | `phaseCorrel` with sums of characters of `ZMod m × ZMod n`; `getDispl`, `getDisplConfidence` on a linear order | orthogonality of characters; unique maximum of a fold |
| C199 | partial | `sub_windows` on the memory of an array, `get_field_shape`, `get_coordinates` | floor division; index of a pixel in a list of lines |
| C200 | partial | `spectreDiff` with sums of characters of `ZMod m × ZMod n`, `timeAveraged`, `logSpaced` with real powers | Parseval in two dimensions; couples in closed form; bounds of a rounded geometric series |
| C201 | proved | `RadialAverager`, `radialAverage`, `ddm`; `np.histogram` by its definition | frequencies of the bins in closed form; the axis of the largest dimension has a pixel in each ring |
| C202 | partial | `load_vorobonds` on lines of integers, `get_second_outside` | sorting of pairs; invariant of the loop over bonds |
| C203 | proved | `cgVolume` on lines of cells | invariant of the sums and of the counts |
| C204 | partial | `coarseGrainField`, `dilateField`; assignments of numpy with repeated indices | induction on the bonds from the last |
| C205 | partial | `spatialCorelation` of a scalar field with real coordinates; the tree is a parameter | invariant of the loop over points; bins as intervals of distance |
| C206 | partial | `save` and `load` on tokens | one lemma by section of the file; the number of turns is bounded by that of tokens |
| C207 | partial | `bond_life`, `bond_last` with the sparse matrix of scipy as a dictionary without zeros | invariant over times |
| C208 | partial | selections of `z_slab` and `exclude_null` | minimum and maximum of lists |
| C209 | partial | `Txp.time_correlation` after the reading of the files; slices of python | induction on the starts |
| C210 | partial | `dilate` and `average` of one column | from the neighbours of C154 |
| C211 | partial | `decimate_hist` with its views, `meanMap1D`, `meanMap`, histograms of numpy with edges | invariant: consecutive groups; each number is in one bin |
| C212 | partial | `space_correlation` of real values, `correlate_qlm` | sums over lists |
| C213 | partial | `ImageStructureFactor`, `StructureFactor2D`, `StructureFactor3D`: distances, accumulation, normalisation; the spectrum is a parameter | invariant over the calls |
| C214 | partial | `Txp.get_clusters`, `get_time_clusters`; networkx as a parameter with a specification | array filled at different places; equivalence generated by the bonds |
| C215 | partial | `traj_crea_dest`, `vtk_tracking` up to the field that is written | invariant of the writings; the positions of a time are a permutation |
| C216 | partial | the whole `main` of traj2vtk on a disk after the reading of the trajectories; the series of files are functions of time | from C30 and C111; a series that is computed is found again |
| C217 | partial | distribution of the durations of cages, tables of invariants of cage2vtk | induction on the cages; arithmetic of indices |
| C218 | partial | `get_links`, `get_links_size` with the R* tree, in the order of one thread | queries of the tree from C12 and C13; boxes that do not overlap are of pairs too far |
| C219 | proved | `get_srdf`, `get_planar_rdf`, `get_slice_rdf`, `spatial_correlation` | a loop that adds to bins is a sum; completeness of the query for each pair of boxes |
| C220 | partial | `get_s2` with real logarithms | ln x < x - 1; sum of the shells is a sphere |
| C221 | proved | `get_Sq` with the cache of powers, complex numbers | powers of exponentials; phases of a period; vectors from C152 |
| C222 | partial | `generate_kvec_rect` (conversions to int by truncation) and `rectangular_Sq`; the sort of the axes is a parameter | first vectors of a sorted list; pigeonhole for the axis |
| C223 | partial | `structure_factor`, `get_rdf_window` with `fmod` | trigonometry; sums over pairs |
| C224 | partial | `get_space_correl`, `get_space_correl_binary` with `periodic_dist` (C149), exact arithmetic, loops in order | loops that add to bins; the pair is seen or is at least L away |
| C225 | partial | `get_rdf`, `get_binary_rdf` of periodic.py, flat arrays that are not checked | same |
| C226 | partial | `get_N_ngbs` of periodic.py with a multimap | sorted permutation of the candidates |
| C227 | partial | `loadXbonds`, the lines of the file as pairs | filter |
| C228 | partial | `ngp`, the squared displacements as a parameter | exchange of sums; Cauchy-Schwarz on lists |
| C229 | partial | `get_Brownian_corr`, the tree as a parameter, numpy assignment to repeated indices | fancy assignment keeps the last value of a key; induction on the selection |
| C230 | partial | components of a pair in `get_Brownian_corr`, `MSD_twopoint`; nan as a top element | orthonormal frame by field arithmetic; sum of squared deviations |
| C231 | partial | the cells that `exportDynamics` writes, and the rows a reader that skips comments finds | induction over sets and times; a reader specified by itself |
| C232 | partial | `link_save` on top of `get_links` (C218) and `Linker` (C148), with what `np.loadtxt` gives for short files | invariant of the loop over the frames |
| C233 | partial | `Txp.get_Nb_density`, arrays with two dimensions | the box of the particles inside is the box of the selection |
| C234 | partial | `mean_V`, `mean_Nb`, `get_VF`, with what `np.loadtxt` gives for one particle | field arithmetic on C166 |
| C235 | partial | `get_tau` on the rows of the file of C231 | least index of a filtered range |
| C236 | partial | `self_isf` with `timecorrel`, complex exponentials | C150 on each axis; periods of the exponential |
| C237 | partial | `sobel` of scipy in any dimension, `local_disp`, `LocalDispl` away from the borders | smoothing multiplies affine functions by 4; symmetric matrices |
| C238 | proved | `elongated` on the same | factorisation of the discriminant |
| C239 | partial | `readTIFF16`, the bytes that PIL gives | index arithmetic on flat lists |
| C240 | partial | `find_blob` from the minima on, displacements as a parameter | decision logic for each center; C237 for polynomials |
| C241 | partial | `save_2Dcenters` from the blobs on, `np.repeat` | powers of 2; sums over doubled pixels by induction |
| C242 | partial | `export_structured_points`, items as bits; the reader is in the theorems | base 256 digits by induction; index arithmetic |
| C243 | partial | `ProgressBar` in a terminal, `round` of python | bounds on rounding; lists of characters place by place; induction on the loop |
| C244 | partial | `VoroContainer::get_volumes`, streams as words with `eofbit` and `failbit` | induction on the lines; the turn after the last line changes nothing |
| C245 | partial | the files `.cloud` of `boo` and `boo_flip`, `ofstream` open or closed, `loadBoo` | index arithmetic on flat lists; C40 |
| C246 | partial | names of files in `boo`, `boo_flip` and `dat2vtk` | last occurrence of `_t` (C126) |
| C247 | partial | `volume`, `faces`, `saveVoroFormat`; voro++ as a function, `%g` as a rounding | extrema of lists; a sorted list is unique up to permutation |
| C248 | partial | `make_bond_network` on real numbers; voro++ as a function | extrema of lists; C202 |
| C249 | partial | names of the files of a series in `boo.cpp` | last run of digits; decimal digits without leading zero are unique |
| C250 | partial | `colorscale` for a pixel, on real numbers | fractional part; trigonometric bounds; continuity on both sides of one half |
| C251 | partial | `clusters2particles`: cuts, overlaps, nearest slice; the curvature and the blobs are given | tree of the pieces and its number of turns; induction on the blobs |
| C252 | partial | `getNeighbourhood` in a dimension, histograms of `getRadius` with distances as bytes | floor inequalities; prefix sums of the histograms |
| C253 | partial | `getDisplacements2D`, the Fourier transforms as sums | characters of cyclic groups: inversion of the transform and equality in a sum of real parts |
| C254 | partial | `load_clusters` after the parsing | item by item |
| C255 | partial | `clustersize`, the components of networkx given | induction on the components |
| C256 | partial | `starting_pos` and `terminated_pos_tr` of `track_droplet.py` on the linker of C148 | invariant of the linker |
| C257 | partial | `File`, `Vector` and `Item` of `povray.py` | mutual induction on items and their options, with a reader that is a machine with a stack |
| C258 | partial | the regular expression, the pattern and the loop of `track_orange.py`, as in three other scripts; the operator `%` of python for decimal numbers | induction on names; digits of C39 |
| C259 | partial | `envelope`, with `np.gradient` as differences; the Gaussian filter is given | case analysis on the signs of differences |
| C260 | partial | `get_nb` and `mean_Nb` with the file they leave | case analysis on the file |
| C261 | partial | names, selection and subsets of `draw_cloud` | induction on names; case analysis on the order |
| C262 | partial | `getVTK` and the loop of lif2vtk.py, with the numbers of the header | arithmetic of places; induction on the frames |
| C263 | partial | `get_intervals`, `auto_ageing`, `get_interval_file`, given to the model of mains/ISF.cpp | membership in filtered ranges; modular arithmetic; induction on digits |
| C264 | partial | command lines of `cut`, `link`, `linkboo`, `rdf_radius`, `g6`, `get_tau` and `boo`, and the reading of `argv` by the programs | round trip of numbers in decimal; case analysis on the arguments |
| C265 | partial | the searches of regular expressions and the loop on files of the constructor | induction on names; permutations of the folder |
| C266 | partial | `Experiment.g6` and the lines written by mains/g6.cpp | induction on the frames; arithmetic of a field |
| C267 | partial | maxima and slice of `Experiment.g6_envelope` | sorted lists cut at a value; counting without repetition |

## Where the code and the claims disagree

Each line is a theorem of the model. It says what the code does; whether it is a defect depends on the intent.

* C04 writing an empty trajectory reads `steps[0]` (`C04_empty_trajectory_is_ub`); a trailing tabulation duplicates the last position (`C04_trailing_tab_duplicates`).
* C05 an empty trajectory that starts at time 0 says that it exists everywhere (`C05_empty_counterexample`).
* C07 explicit frames are accepted with gaps in new numbers, on an empty index, or from positions that do not exist (three counterexamples).
* C08 `span` is wrong at the last time (`C08_span_counterexample`).
* C13, C15, C18 nodes are tested with a strict overlap: items of zero extent on the boundary of a query can be missed; a flat system has nothing inside any margin. `BruteSpatialIndex` starts from an uninitialised pointer.
* C14 the boxes of nodes are not nested any more after a translation.
* C17, C51 bounds start from the smallest positive double: wrong for sets with negative coordinates only. The overall box does not shrink after removals.
* C21 the search of the nearest neighbour never returns on an empty set.
* C25 rescaling particles does not rescale their index.
* C28 periodic enclosure misses or repeats images on the faces of the box.
* C29 the temporal index reads an uninitialised pointer, returns too much and reads out of bounds.
* C30 short series are never divided by the number of terms.
* C31 the tree version removes by box for tolerances less than 1 and divides by the tolerance above 1.
* C34 the default arguments of the two ways of linking do not mean the same criterion.
* C37 the coefficient m=0 is not conjugated in `innerProduct` (harmless for spherical harmonics).
* C39 names that end with digits, contain `%`, have no extension or a dot in the directory (six counterexamples).
* C40 the box read from a DAT file has its lower corner at the origin.
* C41 the drift of a pair of frames spanned by a single trajectory is not removed; `getDrift(t0,t1)` ignores t1.
* C42 the starts used are t0 to t2-1 instead of t0 to t0+t2.
* C43 with a temporal index the answer is that of the index, see C29.
* C45, C65 the last position of each cut trajectory is lost; the cages depend on the origin of coordinates.
* C46, C47 sizes less than 2 in one dimension, less than 3 in three dimensions, and thin volumes.
* C48 the last row and column stay black after upscaling, in 3D all the odd columns do; in 1D the last pixel does.
* C49 slice number not checked, no recovery after a failed read, 16 bits, 2^31 pixels, xzy scans, sizes that wrap.
* C50 zero bins: undefined behaviour. C60 flat or empty sets: density that is not a number.
* C53 the gradient uses the first and third centers only. C54 blobs at the end of a line, depth of the last frame.
* C55 `getWl` is not `getInvarients`.
* C57 `getBOOs` divides by zero for isolated particles and adds to what the array contained.
* C58 `load_q6m` reads past the end of what `exportQ6m` writes.
* C59 selections that are not sorted.
* C61 `velocities` with a null interval; `getSD` is not the squared displacement.
* C62 all the lags hold the value of the largest; division twice; disagreement with `getMSD`.
* C63 default arguments of `getSelfISF` and offsets of `getISF`: undefined behaviour; not normalised.
* C66 repeated trajectories in a selection. C68 the last frames with an offset.
* C69 the position can be anywhere in two dimensions when the Gaussian layer has no maximum there; the scale can be not a number. In one dimension a flat signal gives a position that is not a number and the empirical correction of the scale moves an exact maximum.
* C70 width and height are exchanged, in two and in three dimensions. C71 columns left over by the division between threads are not blurred.
* C73 octave 0 is shifted by a quarter of a pixel.
* C74 truncated files, C75 more time stamps than declared and units of old files.
* C76 the time step read is always the first; non-square slices, two channels and line scans.
* C79 the Hanning window of a single point is not a number.
* C81 floating point volumes are shrunk to 0.5 everywhere.
* C82, C83 null bonds and null axes are taken as the axis z.
* C84 `reflect` forgets the azimuth of the normal, so it is not the mirror image nor `rotate_by_Pi` as its comment says.
* C86 `is_ring` accepts several separated rings.
* C88 `getSecondShell` forgets the linked pairs without common neighbour. C89 `getSP5c` does not test that the five common neighbours form a ring.
* C91 clusters are not followed by the cluster with the most common members, as the comment says, but by the most similar. C92 `DynamicClusters::assign` keeps the former clusters.
* C95 the sum of the intensities of `Tracker::fillImage` is not initialised; in two dimensions SerieTracker divides the mean twice.
* C96 for odd sizes the mask is mirrored one index off; for a size of 3 part of it is never written.
* C97 plateaus get several marks or none. C98 images of 5 to 12 pixels in a dimension are read out of bounds; the shift has no bound and can be not a number.
* C99 the automatic threshold may never return; it is undefined without center or with equal intensities.
* C100 `getIntensities` truncates the position: the intensity may be that of the pixel before.
* C101 if rmax has a fractional part of 1/2 or more the neighbourhood is smaller than the block copied in it.
* C102 pixels after the upper borders of the image count as black; the number of pixels of the first class is replaced by 1; classes out of bounds if rmax is not a whole number of classes or less than twice rmin.
* C103 names of series without extension, with text between the numbers, with the time before the depth (all the images are then read from the same file), or with a word that starts with `_t`.
* C104 with several channels `operator++` does not go to the next time step; the last increment may read after the end of the file; `SerieTracker::length` is never set.
* C105 a file of bonds with a particle bonded to itself makes `sp5c` write incomplete clusters.
* C106 the programs do not look for the first minimum but for the lowest bin after the peak; they never end if a bin there is empty; `bonds` without argument uses a length of 0.
* C107 `totalRdf` divides by the number of frames plus one.
* C108 `cgVoro` never ends if from a particle the bulk cannot be reached. C109 it reads the first element of an empty vector for a cell without neighbour; it prints the walls (negative numbers) as bonds.
* C110 `dhlngb` reads an empty file of bonds as a bond whose ends are undefined; the argument -1 passes its check. C111 `lostngb` and `traj2vtk` write the number of neighbours gained, not lost; with an interval longer than the film `size-tau` wraps.
* C112 `loadTau` gives 2^64-1 when the correlation is never above 1/e, and uses a binary search on data that may be noisy. C113 the end of a trajectory is counted as a jump; an interval of 0 or 1 divides by zero. C114 `4/3` is an integer division: the volume fractions are 3/4 of what they should be.
* C115 the angular distribution is not a fraction: each angle counts once whatever the number of pairs, and the normalisation is by (nb-1)(nb-2)/2; two opposite neighbours write after the end of the array. C116 the correlation of bond order is normalised by 4 pi/13 whatever the degree.
* C117 a field name with a space or a field of another size gives a VTK file that cannot be read; the overloads "without bonds" write the bonds of the neighbour list and follow a null pointer when there is none.
* C118 `seam_binary` divides two integers: called on the smaller octave, the factor is 0 and its inverse infinite; in three dimensions the binary images are empty, so that any use is undefined behaviour; no finder calls it. C119 the cache of kernels has a precision of 0.01 pixel, not 1%, and what is returned depends on the history.
* C121 the images `layers` of `OctaveFinder3D` point after the end of the allocated memory; `nplanes * nrows * ncols` overflows `int`. C122 `MultiscaleFinder3D::fill` does not check the number of planes before `upscale` writes them. C123 `halfZpreblur` doubles the blur along Z; deconvolution ignores `ZXratio`.
* C124 in `getSelfISF(t0,t1,t2)` a start without spanning trajectory contributes `0*NaN`, so that all the lags but the first are NaN. C125 `makeDynamics`, hence `exportDynamics`, always calls `getSelfISF` with `t3 = 0`, which writes after the end of its result (C63); it then reads one value too many in it. `exportDynamics` also writes no end of line after the headers.
* C126 `linker` drops what is between the token and the last slash of the name: time steps in different folders are linked but the file cannot be opened. Displacements removed before the linking are not written in the trajectory file.
* C127 `selectEnclosed(box)` asks for the objects that last from the first to the last time of the index, not for all enclosed ones. A slice gives only the particles whose whole trajectory is in the box, not sorted. `sliceIndex` cannot be instantiated, and would keep a reference to a temporary.
* C128 `makeSBoo` dereferences the end of the map when a neighbour of a selected particle has no bond order; a trajectory given twice is counted wrongly.
* C129 `g6` takes a diameter of 2 whatever the radius given: its range and abscissas are wrong unless the radius is 1. In mode 1, a particle without tensor whose neighbours have one is kept.
* C130 `boo` selects by another rule when the file of bonds exists already: in a sample thinner than 1.3 diameters, the second run with the same arguments keeps the particles at the sides that the first one removes. It reuses the bonds of another radius. A neighbour without tensor is averaged as a null tensor. With `_t` in the name of a folder only, its output goes to a folder that does not exist.
* C131 The margin of `linkboo` is half the bond length, contrary to its comment. In a sample in a plane `linkboo` gives no tensor, `boo` gives one to all the particles.
* C132 `avpos` leaves out of the mean the positions at the origin (`isNull`), and writes sums instead of means when the film has no more frames than half the interval.
* C134, C135 The histogram of g(r), `getDrift`, `getMSD` (with `t3`), `getNonGaussian`, `get_MSD_NGP` and `getISF` add to shared variables in parallel loops without `reduction` nor `atomic`: increments can be lost. A lost increment of the divisor makes the mean square displacement of `get_MSD_NGP` too large, up to the number of intervals.
* C137 `FileSerie::operator%` changes the series. `cgVoro` (four series), `linkboo` (`qlmSerie`) and `cage2vtk` (`velSerie`) share series between threads without protection: the results of a step can go to the file of another, or the program can stop on an exception of boost::format.
* C138 Two separate critical sections push the pixel and the center: `get_center_pixel(n)` need not be the pixel of the center n.
* C139 `MSD` and `ISF` accept `start` = -1 (the test wraps) and `stop` = `start`-1: memory is read out of bounds. `ISF` with `av` = 0 is always undefined, and `dynamics` in all its modes. With `0 < av ≤ start`, the rows of `MSD` are not numbers.
* C141 `percolation` ignores its range argument: 1.3 diameters is written in the code. If one file of bonds is missing, all are ignored, and the bonds of all frames are written in the same file.
* C142 `cutter` tests `!input && !minSep` instead of `!input || !minSep`: `minSep` can be used uninitialised.
* C143 `dat2vtk` names W4 and W6 the columns q8 and q10 of the clouds. Its documented syntax, with one argument, is refused.
* C144 `linker` accepts 4 arguments but reads the fifth. The displacements of the `.displ` file are used for linking, but the file of trajectories refers to the positions without them.
* C145 `periodic_rdf` selects its centers with `index->getInside` instead of the virtual `selectInside`: the particles near the edges are left out. A number of bins 0 writes out of bounds.
* C146 `multiscale` leaves the file of a former run for a time step without centers; a negative `--start` does nothing and succeeds; `--deconvolution 1` requires the kernel file documented as optional; the deconvolution is ignored silently for images with less than 10 voxels along an axis; a missing X voxel size gives an infinite Z/X ratio.
* C147 `all_bonds` never ends for a sample whose particles are all within 29.85 (in the unit of the coordinates, whatever the radius of the particles), because the last bin of the distribution is empty. It checks that the last frame is not empty, but another empty frame stops it with an exception of the index. A file of trajectories with a span of 0 is undefined behaviour. `bonds` without its second argument writes an empty file.
* C148 In python, `Linker.addFrame` needs the module `weave`, whose import is commented out: it fails with at least one link. `Linker.update` raises an `IndexError` when no link is left after its filter, and breaks the tables when given a trajectory that ended earlier than two frames ago.
* C149 In python, `periodic_dist` writes `d =+ period` for `d += period`: when a coordinate decreases by more than half the box the difference is taken to be the whole box. It is used by `get_displ`, `msd`, `ngp`, `overlap`, `get_N_ngbs`, `get_rdf` and the spatial correlations. `remove_drift` wraps the positions into an array that is forgotten.
* C150 In python, `overlap` never counts its last lag; with `av=0` it returns arrays of different lengths, `msd` has a lag too many, and `time_correlation` divides T-1 terms by T at lag 0.
* C152 In python, `generate_kvec` truncates the square root before testing that it is an integer: all vectors in the shell are accepted, some several times.
* C153 `tracker` on a series of images compares the time step to `SerieTracker::length`, that nothing sets, and loads the images of one time step after the last one: it never ends well. With `extractRadii`, the last increment reads one image after the series: undefined behaviour if it is the last of the file. The first run fails because the success of `MKDIR` is taken for a failure; where commands depend on capitals, all the runs fail until the user makes the directory. `onlyTimeStep` is not read for a series of images.
* C154 In python, `ngbN2bonds` iterates on a set: its bonds are not sorted.
* C155 In python, `get_N_ngbs` uses the lower edge twice: the distance to the edge is the largest difference of coordinates with the lower corner. Each particle is its own first neighbour. A particle on the edge keeps only itself. A particle on the lower corner (a single particle, the lowest of a line) makes the call fail.
* C156 In python, `non_overlapping` and `non_halfoverlapping` compute `(pd - pd)**2`: all the particles nearer than the largest radius plus the radius are removed.
* C158 In python, `Grid.get_near` calls `np.unique1d`, that was removed from numpy.
* C159 In python, a LIF series without pixels makes `getSeries` raise IndexError. Blocks of memory are matched to series by order only. A block that is cut short is accepted (the C++ reader refuses it). A block without its second `*` makes the reader loop forever.
* C160 In python, the time stamps are kept under a name that is mangled, and looked for under the name not mangled: for headers with time stamps as elements, the list is empty from the second call on, and always empty through a `Reader`.
* C161 In python, LIF series in the order XZY(T), documented as supported, are misread by `getFrame` and `get2DSlice`. `enumByFrame` gives wrong pixels with several channels. `enumBySlice` always fails in python 3. Negative times are accepted and read bytes before the series.
* C162 In python, `chooseSerieIndex` accepts the number of series as an index. `chooseChannel` asks even with a single channel. `isPreview` is true for any text, "0" included.
* C163 In python, `load_trajectories` drops the last digit of a file that has no last end of line, that the C++ reader reads. `nb_trajs` raises UnboundLocalError on an empty file.
* C164 In python, `p2tr` says that a position that is in no trajectory is in the trajectory 0.
* C165 In python, `load_all` compares times of files to starting times counted from the first file: it raises IndexError for all the experiments whose offset is not 0.
* C166 In python, `get_zPortion_Nbd` has its lower bound reversed: it counts the particles under the slab, and raises ValueError with the default margins.
* C167 In python, `Experiment.msd` removes as a drift the mean of the three components together: any drift that is not the same along the three axes is kept in part.
* C168 In python, `Txp` compares steps of trajectories counted from the first file to times of files: for an experiment whose offset is not 0 the constructor fails, or reads the positions of other particles when a window is asked. The copy constructor does not copy the window.
* C170 In python, `Txp.msd` never gives the lag `stop - start` that its documentation promises; lags after the end of the experiment are given as 0; `export_msd` and `export_self_isf` always raise an exception as they have more times than values.
* C171 In python, `broken_bonds` raises an exception when a time has no bonds. `Txp.load_bonds` raises IndexError as soon as a particle of a trajectory has an index larger than those of all the bonded particles, and fails for a file of one bond; for a window that does not begin at 0 it gives the bonds of other trajectories.
* C172 In python, `neverreform` and `never_closer` keep the pairs at a distance of exactly `L` bonds (documented: larger than `L`), as they count nodes, and drop the pairs that are not connected any more. They raise an exception when a time has no bonds, though they mean to handle it, and when the offset is not 0. They need python 2. The cache that they load is not used.
* C173 In python, `neighbouring_bonds` takes a negative index for a trajectory that begins later, and so gives bonds that do not exist; it may give a bond twice.
* C174 In python, `find_peak_mins` never ends when the two last values of the curve are equal.
* C175 In python, `bonds2qlm` gives the same coefficients to the two ends of a bond, which is right only for even degrees; nothing refuses an odd degree, for which the result depends on the order in which the ends of the bonds are listed.
* C176 In python, `coarsegrain_qlm` leaves the particle itself out of the mean that its documentation defines: two bonded particles exchange their coefficients, and a particle without neighbour gets 0.
* C178 In python, `get_w3j` takes for an odd degree the symbols of the even degree below, and the compiled code reads outside of the table for a degree larger than 11.
* C180 In python, `gG_l` raises IndexError when a pair of particles is exactly at the distance `maxdist`, as its arrays have no bin for it (`get_rdf` has one more bin and drops it).
* C182 In python/colloids/phase.py the coefficient `C` of the free volume is `q**3` where scaled particle theory (and the article cited by the module) has `3 q**3`: the free volume is over-estimated for all packings and size ratios.
* C183 In the class `Hall`, `Z` (Hall's equation) and `pv_0` (free volume limit) disagree: by more than one percent of the pressure at a volume fraction of 0.7.
* C184 The chemical potential of `Kolafa` has a constant 1/3 too much: it tends to log f + 1/3 for a dilute fluid. Harmless between two fluids of this class, and absorbed by `Delta_muS_0` with a solid.
* C185 `binodalGL` may return twice the same packing: it is a root at all osmotic pressures, nothing excludes it.
* C186 The first line of the fluid-solid tables, (0, f_HSf, f_HSs), is not a coexistence of the default equations of state: the pressures differ by more than 0.001 (of about 6.08); `Delta_muS_0` only makes the chemical potentials equal.
* C187 The tables of fluid and solid have two lines at zero osmotic pressure, which differ.
* C188 In python/colloids/track.py, `G(R, sigma, d)` is twice the Gaussian blur of a ball at distance `d` (`halfG` is not halved), while `G(R, sigma)` is right at the center and `G_dsigma` is the derivative of the right one.
* C190 As a consequence `solve_intensities` counts the neighbours twice.
* C191 In python/colloids/track.py, `draw_rods` goes one voxel too far down when the lower end of a rod is not an integer.
* C192 `split_clusters` never ends when the radius is null.
* C193 `CrockerGrierFinder.subpix` in two dimensions adds the correction computed along one axis to the coordinate along the other. The cross derivative of its test of elongation is not divided by four, so that the limit depends on the orientation.
* C194 A size rounded to 0 (k below 0.35) empties the octave without an error: the slice `[:-0]` is the empty one.
* C195 `MultiscaleBlobFinder.__call__` does not give `k` to the octave of the image: its radii are those of k = 1.6 whatever `k`, and the octaves after it are not blurred as they should.
* C195 Octave -1 is made with `np.repeat`: the coordinates found in it are a quarter of a pixel too large along each axis.
* C195 Without octave -1, an image with a side of 8 pixels or less is an exception of `vstack`, while with it an image with a side of 4 or less gives an empty result.
* C197 In python/colloids/microrheology.py, `log_msd_vs_tau` uses `maxtime` (seconds) as a number of steps: it is an IndexError if it is more than the number of lags by 15 percent, and drops long lags when the time step is not one second.
* C197 `log_msd_vs_tau` of a single positive lag is a ValueError (`np.arange(0)` is empty, no rank is kept).
* C198 In python/colloids/phaseCorrelation.py, `phaseCorrel` divides by the modulus of the product of spectra without care of zeros: an image with constant lines gives an array of nan, and `getDispl` says (0,0) whatever the displacement.
* C198 `getDispl` and `getDisplConfidence` give opposite signs to a displacement of half of an even size.
* C199 `get_coordinates` reverses `y` (a copy of PIV code where the windows are also in that order), `sub_windows` does not.
* C199 `sub_windows` computes the strides from the shape: a transposed or cut view is read as if its memory was its own.
* C200 In python/colloids/ddm.py, `timeAveraged` says "at most navmax" but uses all the couples when there are between navmax and twice as many (step rounded down).
* C200 `logSpaced(1)` returns the interval 1, not smaller than 1: the average over no couple is nan.
* C202 In python/colloids/voro.py, `get_second_outside` sizes its array by the last bonded particle: a particle on a wall with a larger index is an IndexError.
* `voro.faces` formats six bounds with three `%g` and a tuple of arrays: always a TypeError (not modelled).
* C204 In python/colloids/vtk.py, `cg[bonds[:,0]] += ...` keeps one neighbour of a repeated index while `bincount` counts all: a constant field is not preserved.
* C204 `dilateField` overwrites the value at each bond: it depends on the order of the bonds, and particles without bond get 0.
* C205 `spatialCorelation` has the same repeated index: one pair by point and by bin is counted. Its first column is `b/maxDist` instead of `b*maxDist/Nbins`. A pair at exactly maxDist is an IndexError.
* C206 `Polydata.load` ignores the line CELL_DATA: fields on bonds are read as fields on points, with the number of points as size.
* C206 A file saved with no point and a scalar field has a blank line: `line[0]` is an IndexError.
* C207 In python/colloids/experiment.py, `bond_life` writes times in a sparse matrix that does not store zeros: a bond of time 0 is said to begin later. Files with one bond are an error.
* C208 In python/colloids/experiment.py, `z_slab(allTimes=True)` keeps trajectories that are in the slab at *some* time, and `allTimes=False` keeps those that jump over the slab without being in it. `exclude_null` tests the minimum: a negative value hides a null one, and a time without file counts as null, which removes all trajectories when the first time is not 0.
* C209 In python/colloids/experiment.py, `Txp.time_correlation`: the slice of the last start is empty (`data[av-1:0]`), so that `av=1` gives not-a-number; `av=0` asks for the second dimension of an array of one.
* C210 In python/colloids/experiment.py, `dilate` ignores the value of the particle itself; `dilate` and `average` fail when a particle has no bond.
* C211 In python/colloids/statistics.py, `decimate_hist` changes the array of the caller; its last bin may be under the threshold.
* C212 In python/colloids/statistics.py, `correlate_qlm` adds a list and an array, `[0]+2*np.arange(1,n)`, and so asks for coefficients that do not exist: it never works.
* C213 In python/colloids/statistics.py, `StructureFactor3D` takes the third wave number in those of the second dimension; `get_S` is a sum over configurations and not a mean; `StructureFactor2D` indexes an image with three indices and always fails.
* C214 In python/colloids/experiment.py, `Txp.get_clusters` fails when a node is after the last bonded position or the file has one bond; `get_time_clusters` uses lists as dictionaries and always fails.
* C215 In python/colloids/experiment.py, `vtk_tracking` fails or reads values that are not initialised when a position is on no trajectory, and always fails on the last file when the first time is not 0.
* C216 `traj2vtk` does not compute again the series it finds: another averaging interval gives the results of the previous one. The table of a missing `.cloud` file is that of the frame before; only the first and last files of a series are looked for.
* C217 In `cage2vtk`, `cageSpan[c->steps.size()]` is out of bounds for a cage that lasts all the film. Its `.boo` files have four columns and `loadBoo` reads eight: particle p gets the values of particle 2p. It averages `_cage` `.cloud` files, that no program writes.
* C218 In python/colloids/particles.py, `get_links` links particles closer than `maxdist` times the sum of their radii: with unit radii, as in `link_save`, twice the `maxdist` of its description. `get_links_size` adds the square of a difference of radii to a distance. `np.resize(pairs, [len(pairs)/2,2])` fails with python 3.
* C220 In python/colloids/particles.py, `get_s2` does not weigh the bins by the volume of their shells: the result depends on the length of the bins.
* C222 In python/colloids/periodic.py, `generate_kvec_rect` keeps the first `maxNvec` vectors in the order of its loops: in a cube, from bin `maxNvec-1` on, all of them are perpendicular to one axis. `Lsq(0)*j*j<Lsq(1)*(nk*nk-i*i)+1` compares with an area of 1: vectors slightly too long, and for flat boxes of sides less than 1 a cache read out of its bounds.
* C223 In python/colloids/particles.py, the window `0.5*(1+sin(2 pi x/L))` of `structure_factor` (and the one with a minus sign of `get_rdf_window`) is a Hann window displaced by a quarter of the box: particles of the faces weigh as much as those of the center, and those at 3/4 (1/4) of an axis are ignored. `get_rdf_window` weighs a pair by its first particle: the result depends on the order.
* C224 In python/colloids/periodic.py, `d =+ period` in `periodic_dist` (C149) makes `get_space_correl`, `get_space_correl_binary`, `get_binary_rdf` and `get_N_ngbs` see a pair through a face of the box from one of its ends only, or from none.
* C225 In python/colloids/periodic.py, `get_rdf(p, ...)` uses the number p as the three coordinates of the center. `get_binary_rdf` with `sep` larger than the number of particles (default 800) reads out of the array.
* C227 In python/colloids/periodic.py, `loadXbonds` fails on a file of one bond.
* C228 In python/colloids/periodic.py, `ngp` gives -1 for a zero interval, and with `av` at 0 has a last value that is 0/0.
* C229 In python/colloids/experiment.py, `get_Brownian_corr` adds with `bres[..., lrs] += ...` and `nb[lrs] += 1`, that count a repeated index once: each particle gives at most one pair per bin. A neighbour exactly at `rmax` is an IndexError.
* C230 In python/colloids/experiment.py, `get_Brownian_corr` divides by zero for two particles above each other: the transverse sums of the bin become nan. The errors of `MSD_twopoint` are the spread of the pairs, not the error of the mean.
* C166 C234 In python/colloids/experiment.py, `get_Nb_density` and `mean_V` read a file of one particle as an array with a single dimension: three particles, and a difference of two coordinates as a volume.
* C231 In lib/dynamicParticles.cpp, `exportDynamics` writes no end of line after the names of the columns: the row of lag 0 is at the end of the comment. With less names than sets or without any set it reads out of range.
* C232 In python/colloids/particles.py, `link_save` fails at a frame of less than two particles that is not an empty last one; a film of one particle has three trajectories.
* C235 In python/colloids/experiment.py, `get_tau` is an error for a film of two frames, as the file has a single row once the row of lag 0 is lost (C231).
* C236 In python/colloids/periodic.py, `self_isf` takes a wave number that is a multiple of pi/L: for an odd floor of L/radius, the result changes sign when a particle crosses a face of the box.
* C237 In python/colloids/track.py, `local_disp` and `LocalDispl` multiply by `4**(ndim-1)` where the two `sobel` need `2*4**(ndim-1)`: displacements are half of what they should be. The correction of the value is `4**(ndim-1)` times too large.
* C239 In python/colloids/track.py, `readTIFF16` gives width and height in the order of `im.size` to `reshape`: the images that are not square are mixed.
* C240 In python/colloids/track.py, `find_blob` puts the centers half way between the pixel and the minimum, as a consequence of C237.
* C241 In python/colloids/track.py, `save_2Dcenters` multiplies by 0.5 the coordinates in the image with doubled pixels, where pixel u of the image is centered on 2u + 1/2: these positions are a quarter of pixel too far. The head of the file says 256 by 256 pixels for any slice.
* C242 In python/colloids/vtk.py, `export_structured_points` accepts arrays of four dimensions and writes a file whose number of points is not the product of its dimensions.
* C243 In python/colloids/progressbar.py, `animate_noipython` does not exist: there is no progress bar without IPython. The bar is printed before it is updated: it never says that all is complete in the documented loop.
* C244 In mains/cgVoro.cpp, `get_volumes` uses a variable without value when voro++ prints no cell.
* C245 In mains/boo.cpp, line 127 writes the head of `_surf.cloud` to `cloud_cgFile`, which is closed: `_surf.cloud` has no head and `loadBoo` shifts it by one particle. In mains/boo_flip.cpp, the heads of the `_flip` files name 4 columns for 8.
* C246 In mains/boo.cpp and mains/boo_flip.cpp, a `_t` in a directory is taken for the time token when the name of the file has none: the files are written in another directory, if it exists.
* C247 In python/colloids/voro.py, `volume` sorts the printed cells by number: if voro++ omits one, all the following volumes are shifted by one particle. `faces` formats three arrays with `%g` and always raises a `TypeError`.
* C248 In python/colloids/voro.py, `make_bond_network` raises an `IndexError` when a particle at a wall comes after all the bonded ones.
* C249 In mains/boo.cpp, `periodic_boo` with a time span asks for numbers without leading zeros, and takes a digit of the extension for the time.
* C250 In python/colloids/colors.py, `colorscale` takes the values modulo 1: the value 1 gets the color of 0, blue instead of red.
* C251 In python/colloids/track.py, `clusters2particles` puts the pieces of a pile at the end of the list on which it iterates: a cut rounded to the first slice gives the same pile again, without end. A blob two slices beyond the end is an `IndexError`.
* C252 In python/colloids/lif.py, `getRadius` stores square distances in an array of the type of the image: for bytes they are truncated modulo 256. With the default radius of 10 pixels the corners, at 300, count at 44.
* C253 In python/colloids/lif.py, `getDisplacements2D` compares lines with the number of columns and conversely: for images that are not square, negative displacements are wrong. `getDispl2DImage` has an expression with parentheses that are not closed and always raises.
* C254 In python/colloids/track.py, `load_clusters` does not read slices with less than two centers (`np.loadtxt` returns an array without lines) and ignores the offset of the series.
* C255 In python/colloids/vtk.py, `clustersize` uses connected components as indices: since networkx 1.9 they are sets, that numpy refuses.
* C256 In python/colloids/track_droplet.py, `pos2tr[-1]>nbtrajs[-2]` misses the first trajectory that starts in a frame (`>=` is needed). Beside, `terminated[:,1:3]` takes the second coordinate and the intensity where the two coordinates are needed (seen, not modelled).
* C257 In python/colloids/povray.py, the default `opts=[]` is shared by all the items made without options; `append` raises for the items of the other classes, whose options are tuples; a keyword that is a tuple of one number raises.
* C258 In python/colloids/track_orange.py, count_nuclei.py, spectrum.py and track_droplet.py, the number is searched after the last underscore only (the comment says the last group of digits after an underscore): nothing is read for `image_001_red.tif`. The loop begins at 0 and reads nothing of series that begin at 1. Percent signs in names are not escaped.
* C259 In python/colloids/experiment.py, `envelope` misses the peaks at which the gradient is exactly zero, that is those with equal neighbours, and gives the index before the maximum when the value before it is greater than the one after.
* C260 In python/colloids/experiment.py, `get_nb` looks for the attribute `__Nb`, whose name is never this one because of name mangling: numbers are read from the file `.nb` again at each call. For a single frame it is then a number without dimension and `p2tr` raises. The file is not updated by `cut`.
* C261 In python/colloids/clouds.py, `draw_cloud` raises for names where `_t` occurs twice, and particles with an order parameter of exactly 0.25 or 0.35 are in no subset; crystals with a null w4 are neither FCC nor HCP.
* C262 In python/colloids/lif2vtk.py, the line `DIMENSIONS` has the slices first while the first one of the format is the one that varies first: images that are not cubes are scrambled. In python/colloids/lif.py, `getVTK` raises for images of two dimensions, after it has emptied the file.
* C263 In python/colloids/experiment.py, `get_intervals` gives intervals that end at the number of frames, and mains/ISF.cpp needs one frame more: it refuses all of them, and `auto_ageing` always fails. It forgets its arguments too. The program is called `ageing`, a name that Makefile.am does not build, and `get_plot_string` gives `br` an argument `sigma` that it has not.
* C264 In python/colloids/experiment.py, `link` gives mains/linker.cpp the offset and then the size, and it reads the span and then the offset: from frame 0 it links no frame. `cut` gives mains/cutter.cpp six arguments without names of options, and it accepts a name and a separation. `boo(total=False)` gives mains/boo.cpp no radius. These last two always fail.
* C265 In python/colloids/experiment.py, the files of another series whose name begins by the head are counted with those of the experiment, and the last frame is searched at a wrong number. The time step of `2samples_10s` is 2 seconds.
* C266 In python/colloids/experiment.py, `g6` says it returns g6 and g, but mains/g6.cpp writes the sum of the products and the number of pairs (its header says `g6(r)` and `g(r)` too): the second column must be divided by the third one, and `g6_envelope` does not do it. A call with another `Nbins` and without `force` raises, since the files exist. With another `nbDiameters`, it silently returns the old range.
* C267 In python/colloids/experiment.py, `g6_envelope` slices the list of maxima by `g6.argmax()`, that is a place in the bins: it skips that number of maxima instead of the maxima before that place, and in general keeps few of them or none.

## Axioms of each theorem

As `#print axioms` gives them for the theorems of the manifest.

* no axiom: C08_span_counterexample, Rdf.C59_unsorted_counterexample, Lif.C75_unit_counterexample, Tracker.C104_refused, Mains.C131_unsorted_counterexample, Mains.C153_configuration_partial, Mains.C153_first_run_counterexample, PyLif.C160_missing, PyLif.C161_slice_counterexample, Py.Exp.C163_cut_counterexample, Py.Exp.C163_empty_counterexample, Py.Peak.C174_empty, Mains.Cloud.C245_head_counterexample, Py.Pov.C257_append_counterexample.

* `propext`: C11_hypotheses_needed, C13_brute_uninitialised, C29_uninitialised, Lif.C49_wrap_counterexample, Lif.C76_next, Deconv.C77_wrong_axis, Tracker.C104_length_counterexample, Tracker.C104_dims_counterexample, Mains.C105_self_counterexample, Dyn.C126_names_partial, C127_spanning, C127_enclosed_partial, C127_enclosed_counterexample, Parallel.C138_order_counterexample, Py.Linker.C148_numbers_counterexample, Py.Broken.C173_twice_counterexample, Py.Follow.C215_hole_counterexample, DynExport.C231_empty_counterexample, Mains.C244_empty_counterexample, Py.VtkImage.C262_flat_counterexample, Py.Ageing.C263_arguments.

* `propext`, `Quot.sound`: C04_empty_trajectory_is_ub, C05_empty_counterexample, C05_empty_positive, C07_rejected_unchanged, C07_skip_counterexample, C07_from_counterexample, C09_range_needed, C09_symmetry_needed, C18_empty, C23_no_index, Boo.C38_same_slot, Files.C39_rejected, Files.C39_ends_with_digits_counterexample, Dat.C40_missing, Dyn.C42_empty, Dyn.C42_too_long, Dyn.C43_out_of_range, Octave.C47_small_size_counterexample, Octave.C47_thin_counterexample, Octave.C48_count, Lif.C49_pixels, Lif.C49_range, Lif.C49_frame, Lif.C49_slice_range_counterexample, C51_empty, Recon.C54_end, Boo.C57_surface_bonds, Dyn.C64_no_frame, Dyn.C66_too_long, Dyn.C67_maxBox, Dyn.C67_maxSimultaneous, Octave.C70_response, Octave.C70_negative, Octave.C71_remainder_counterexample, Lif.C74_wrong_code, Lif.C75_new_partial, Lif.C75_overrun_counterexample, Lif.C75_old, Lif.C76_new, Lif.C76_end, Lif.C76_line_counterexample, Structure.C86_two_rings_counterexample, Structure.C89_no_ring_counterexample, DynClusters.C93_empty, Tracker.C98_nan_counterexample, Tracker.C99_undefined_counterexample, Tracker.C103_names, Tracker.C103_time, Tracker.C103_depth, Tracker.C103_single, Tracker.C103_refused, Tracker.C103_original, Tracker.C103_distinct, Tracker.C103_end_counterexample, Tracker.C103_between_counterexample, Tracker.C103_order_counterexample, Tracker.C103_word_counterexample, Tracker.C104_dims, Tracker.C104_jump, Tracker.C104_channels_counterexample, Tracker.C104_end_counterexample, Tracker.C104_param_counterexample, Mains.C106_bonds_counterexample, Mains.C107_mean, Mains.C109_empty_counterexample, Mains.C110_refused, Mains.C110_empty_counterexample, Octave.C118_swapped_counterexample, Octave.C118_3D_counterexample, Octave.C121_gaussians_partial, Octave.C121_differences_counterexample, Octave.C121_large_counterexample, C127_inside, C127_slice_partial, C127_slice_counterexample, C127_order_counterexample, Parallel.C135_drift_sequential, Parallel.C138_sequential, Mains.C142_apart, Mains.C144_arguments_counterexample, Mains.C146_image, Mains.C146_ratio_counterexample, Py.Linker.C148_weave_counterexample, Py.Periodic.C149_box_counterexample, Mains.C153_path, Py.Bonds.C154_list_outside, Py.Bonds.C154_array_outside, PyLif.C160_first_partial, PyLif.C160_twice_counterexample, PyLif.C160_reader_counterexample, PyLif.C161_number, PyLif.C161_negative_counterexample, PyLif.C161_by_slice_counterexample, PyLif.C161_slice_refused, PyLif.C162_choose_partial, PyLif.C162_last_counterexample, PyLif.C162_channel_partial, PyLif.C162_channel_counterexample, PyLif.C162_preview_partial, Py.Txp.C170_last_counterexample, Py.Txp.C170_export_counterexample, Py.Broken.C171_isolated_counterexample, Py.Broken.C171_single_counterexample, Py.Broken.C172_offset_counterexample, Py.Broken.C173_later_counterexample, Py.Track.C191_errors, Py.Track.C194_zero_size_counterexample, Py.PhaseCor.C199_small, Py.Voro.C202_refused, Py.Voro.C202_outside_counterexample, Py.Vtk.C204_last, Py.Vtk.C204_chain_partial, Py.Vtk.C206_cells_counterexample, Py.Life.C207_pairs, Py.Life.C207_single_counterexample, Py.Life.C209_zero_counterexample, Py.StatHist.C211_histogram, Py.StatHist.C211_bins, Py.StatHist.C213_2d_counterexample, Py.StatHist.C213_dists_partial, Py.StatHist.C213_flat_counterexample, Py.Follow.C214_outside_counterexample, Py.Follow.C214_single_counterexample, Py.Follow.C214_time_counterexample, Mains.C216_again, Mains.C216_interval_counterexample, Mains.C217_span_counterexample, Mains.C217_columns_counterexample, Mains.C217_eight_counterexample, Py.Pbox.C227_xbonds_partial, Py.Pbox.C227_single_counterexample, Py.Pbox.C228_refused, DynExport.C231_rows_partial, DynExport.C231_names, DynExport.C231_names_counterexample, Py.GridVtk.C242_plane_counterexample, Py.GridVtk.C242_four_counterexample, Py.GridVtk.C242_type_counterexample, Mains.C244_outside_counterexample, Mains.BooNames.C246_beside_partial, Mains.BooNames.C246_directory_counterexample, Mains.BooNames.C246_token_counterexample, Mains.BooSerie.C249_extension_counterexample, Py.ClusterSize.C255_beyond_counterexample, Py.ImSeries.C258_names_partial, Py.ImSeries.C258_assert, Py.ImSeries.C258_frames_partial, Py.ImSeries.C258_first_counterexample, Py.ImSeries.C258_last_counterexample, Py.ImSeries.C258_percent_counterexample, Py.CloudSets.C261_names_partial, Py.CloudSets.C261_token_counterexample, Py.CloudSets.C261_w4_counterexample, Py.VtkImage.C262_getVTK_partial, Py.VtkImage.C262_script_partial, Py.VtkImage.C262_square_partial, Py.VtkImage.C262_order_counterexample, Py.Commands.C264_g6, Py.G6Mean.C266_mean_partial, Py.G6Mean.C266_nan_counterexample, Py.G6Mean.C266_stale_counterexample, Py.G6Mean.C266_disk_partial, Py.G6Mean.C266_range_counterexample, Py.EnvTotal.C267_empty_counterexample.

* `propext`, `Classical.choice`, `Quot.sound`: C01_one_to_one, C01_total, C02_stable_greedy, C03_index_inverse, C03_contiguous, C03_summaries, C03_trajToPos_posToTraj, C03_value_round_trip, C04_round_trip, C04_trailing_tab_duplicates, C05_queries_partial, C05_pushBack, C05_subtraj, C06_bijection, C06_total, C06_greedy, C07_explicit_partial, C07_links_partial, C07_empty_counterexample, C08_span_partial, C08_read, C09_partition, C09_components, C09_all, C10_unordered, C10_order, C10_set, C10_roundtrip, C10_file_roundtrip, C10_file_ending, C11_bonds, C11_ngb_roundtrip, C11_bond_roundtrip, C12_insertions, C12_code, C12_step, C13_index_sound, C13_index_complete_partial, C13_index_of_boxes, C13_brute_partial, C13_overlapping, C13_enclosing_sound, C13_enclosing_partial, C13_enclosing_interior, C13_enclosing_counterexample, C14_structure, C14_code, C14_nested_partial, C14_nested_counterexample, C15_remove, C15_remove_exact, C15_bounded_area_partial, C16_index, C16_brute_partial, C16_brute_box_counterexample, C16_content, C16_queries, C17_tight_partial, C17_counterexample, C17_removal_counterexample, C18_sound, C18_exact_partial, C18_points_partial, C18_flat_counterexample, C19_position, C19_particle, C19_by_distance, C20_exact, C20_symmetric, C21_nearest, C21_diverges, C22_cut, C23_remove, C24_translate, C25_stale_counterexample, C25_reindexed_partial, C25_box, C26_minimal_image, C27_symmetric, C27_images, C27_zero, C28_sound, C28_complete_partial, C28_face_counterexample, C28_boundary_counterexample, C29_query_partial, C29_complete_partial, C29_same_start_partial, C29_unsound, C29_out_of_bounds, DynField.C30_window_mean_partial, DynField.C30_no_averaging, DynField.C30_short_series_never_divided, Center.C31_tree, Center.C31_brute_force, Center.C31_tree_eq_brute_force, Center.C31_small_tolerance, Center.C31_large_tolerance, Center.C31_tolerance_counterexample, Center.C31_half, Recon.C32_clusters, Recon.C32_links, Recon.C33_split, Recon.C33_conserves, Recon.C34_tree, Recon.C34_brute_force, Recon.C34_agree_partial, Recon.C34_counterexample, Boo.C35_binary, Boo.C35_file, Boo.C36_own_slot, Boo.C36_tables, Boo.C36_negative, Boo.C36_degree_bound, Boo.C37_reads, Boo.C37_sum_norm, Boo.C37_null, Boo.C37_hermitian_partial, Boo.C37_symmetric, Boo.C37_self, Boo.C37_self_counterexample, Boo.C37_normed, Boo.C37_normed_self_partial, Boo.C37_Ql, Boo.C38_in_range, Boo.C38_cover, Files.C39_names, Files.C39_original, Files.C39_distinct, Files.C39_no_digits, Files.C39_percent_counterexample, Files.C39_postfix_partial, Files.C39_zero_in_token_counterexample, Files.C39_extension_partial, Files.C39_postfix_extension_partial, Files.C39_no_extension_counterexample, Files.C39_dot_in_head_counterexample, Files.C39_head, Files.C39_get0th, Files.C39_get0th_token_counterexample, Dat.C40_round_trip_partial, Dat.C40_box_counterexample, Dat.C40_truncated, Dat.C40_grv, Dat.C40_loadBoo, Dyn.C41_removeDrift_partial, Dyn.C41_index_partial, Dyn.C41_same_frame, Dyn.C41_idempotent, Dyn.C41_alone, Dyn.C41_single_counterexample, Dyn.C41_getDrift_counterexample, Dyn.C42_msd, Dyn.C42_starts, Dyn.C42_spanning_partial, Dyn.C42_pooled_partial, Dyn.C42_window_counterexample, Dyn.C43_spanning_partial, Dyn.C43_index_counterexample, Dyn.C44_lost, Dyn.C44_count, Dyn.C45_cages_partial, Dyn.C45_last_counterexample, Octave.C46_two_dimensions, Octave.C46_round, Octave.C46_ratio_below_one, Octave.C46_one_dimension_partial, Octave.C46_one_dimension_counterexample, Octave.C46_three_dimensions_partial, Octave.C47_window_partial, Octave.C48_downscale_volume, Octave.C48_block_mean_volume, Octave.C48_upscale_line_partial, Octave.C48_line_end_counterexample, Octave.C48_sizes, Octave.C48_downscale, Octave.C48_downscale_line, Octave.C48_block_mean, Octave.C48_upscale_partial, Octave.C48_border_counterexample, Octave.C48_upscale_volume_counterexample, Octave.C48_coordinates, Lif.C49_dimensions, Lif.C49_large_counterexample, Lif.C49_all_frames, Lif.C49_slices, Lif.C49_plane, Lif.C49_failure_counterexample, Lif.C49_resolution_counterexample, Lif.C49_xzy_counterexample, Lif.C49_inside, Rdf.C50_whole, Rdf.C50_bins, Rdf.C50_rdf, Rdf.C50_no_bins_counterexample, Rdf.C50_bad_selection, C51_inside_partial, C51_counterexample, C52_position, C52_ngb_list, C52_nearest, Recon.C53_actual_cuts, Recon.C53_uniform_partial, Recon.C53_counterexample, Recon.C54_blobs_partial, Recon.C54_depth, Recon.C54_signal, Boo.C55_real, Boo.C55_bounded, Boo.C55_getWl_partial, Boo.C55_getWl_counterexample, Boo.C56_wigner, Boo.C56_orthogonality, Boo.C57_getBOO, Boo.C57_getBOOs_partial, Boo.C57_isolated_counterexample, Boo.C57_reuse_counterexample, Boo.C57_surface, Boo.C57_coarse_grain, Boo.C57_selection, Boo.C57_coarse_grain_selection, Boo.C58_qlm_partial, Boo.C58_qlm_overrun, Boo.C58_q6m_counterexample, Boo.C58_q6m_partial, Boo.C58_string_counterexample, Rdf.C59_remove_outside, Rdf.C60_density_no_index, Rdf.C60_density_index_partial, Rdf.C60_flat_counterexample, Rdf.C60_empty_counterexample, Dyn.C61_velocities, Dyn.C61_zero_counterexample, Dyn.C61_sd_counterexample, Dyn.C62_one_lag_partial, Dyn.C62_lag_counterexample, Dyn.C62_differ_counterexample, Dyn.C62_nonGaussian_counterexample, Dyn.C62_twice_counterexample, Dyn.C63_self_partial, Dyn.C63_greedy_counterexample, Dyn.C63_offset_counterexample, Dyn.C63_collective_partial, Dyn.C63_static_counterexample, Dyn.C64_link, Dyn.C65_origin_counterexample, Dyn.C66_blocks_partial, Dyn.C66_sliding_partial, Dyn.C66_repeated_counterexample, Dyn.C66_missing, Dyn.C67_bounds, Dyn.C68_file_partial, Dyn.C68_offset_counterexample, Octave.C69_line_exact, Octave.C69_line_inside_partial, Octave.C69_line_nan_counterexample, Octave.C69_line_scale_counterexample, Octave.C69_line_far_counterexample, Octave.C69_exact, Octave.C69_inside_partial, Octave.C69_unbounded_counterexample, Octave.C69_scale, Octave.C69_scale_nan_counterexample, Octave.C69_scale_exact, Octave.C69_three_dimensions, Octave.C69_exact_three, Octave.C70_line, Octave.C70_line_constant, Octave.C70_volume_partial, Octave.C70_volume_wide_counterexample, Octave.C70_square_partial, Octave.C70_constant, Octave.C70_wide_counterexample, Octave.C71_blur_partial, Octave.C72_scale, Octave.C72_radius, Octave.C73_octave0_counterexample, Lif.C74_blocks, Lif.C74_too_many, Lif.C74_truncated_counterexample, Lif.C74_data_cut, Lif.C76_slices_partial, Lif.C76_time_counterexample, Lif.C76_square, Lif.C76_rectangular_counterexample, Lif.C76_channels_counterexample, Deconv.C77_convolve, Deconv.C78_filter, Deconv.C78_unique, Deconv.C78_identity, Deconv.C78_twice, Deconv.C78_short, Deconv.C78_image, Deconv.C79_spectrum, Deconv.C79_common, Deconv.C79_convolved, Deconv.C79_kernel, Deconv.C79_deconvolved, Deconv.C79_hanning, Deconv.C79_hanning_counterexample, Volume.C80_sphere, Volume.C81_mean_partial, Volume.C81_float_counterexample, Boo.C82_total, Boo.C82_half_turn, Boo.C82_axis_fixed, Boo.C82_linear, Boo.C82_cluster, Boo.C82_involution, Boo.C82_product, Boo.C82_norm, Boo.C82_axis, Boo.C82_null_axis, Boo.C83_direction, Boo.C83_null_bond, Boo.C83_addition, Boo.C83_unit, Boo.C83_normed, Boo.C83_bounded, Boo.C83_isnull, Boo.C84_actual, Boo.C84_mirror_partial, Boo.C84_azimuth_lost_counterexample, Boo.C84_isometry, Boo.C84_mirror_counterexample, Boo.C85_flip, Boo.C85_alone, Boo.C85_twin, Structure.C86_1551, Structure.C86_is_ring, Structure.C87_2331, Structure.C87_disjoint, Structure.C88_second_shell_partial, Structure.C88_missing_counterexample, Structure.C89_sp5c, Structure.C89_1551_partial, DynClusters.C90_members, DynClusters.C90_exist, DynClusters.C90_no_time_step, DynClusters.C91_one_to_one, DynClusters.C91_linking_partial, DynClusters.C91_unchanged, DynClusters.C91_most_common_counterexample, DynClusters.C92_appends, DynClusters.C92_fresh_partial, DynClusters.C92_twice_counterexample, DynClusters.C93_bounds, DynClusters.C93_missing, DynClusters.C93_largest, DynClusters.C93_assigned, DynClusters.C94_save, Tracker.C95_fill, Tracker.C95_copy, Tracker.C95_unpad, Tracker.C95_slices, Tracker.C95_mean_counterexample, Tracker.C96_low_partial, Tracker.C96_band_partial, Tracker.C96_octant, Tracker.C96_mean_removed, Tracker.C96_refused, Tracker.C96_odd_counterexample, Tracker.C96_three_counterexample, Tracker.C97_sound, Tracker.C97_complete_partial, Tracker.C97_separated, Tracker.C97_plateau_counterexample, Tracker.C98_centroid, Tracker.C98_border_counterexample, Tracker.C98_newton, Tracker.C98_parabola, Tracker.C98_far_counterexample, Tracker.C99_threshold, Tracker.C99_valley_partial, Tracker.C99_hang_counterexample, Tracker.C100_fits, Tracker.C100_centers, Tracker.C100_intensity_partial, Tracker.C100_previous_counterexample, Tracker.C101_neighbourhood, Tracker.C101_sphere, Tracker.C101_even_counterexample, Tracker.C102_pixels, Tracker.C102_border_counterexample, Tracker.C102_profile, Tracker.C102_mean_partial, Tracker.C102_first_counterexample, Tracker.C102_class_counterexample, Tracker.C102_radius, Tracker.C102_margin_counterexample, Tracker.C104_sequence, Tracker.C104_walk, Mains.C105_rings, Mains.C106_bondLength_partial, Mains.C106_firstMinimum_partial, Mains.C106_far_counterexample, Mains.C106_hang_counterexample, Mains.C106_reload, Mains.C107_totalRdf_partial, Mains.C107_average_counterexample, Mains.C108_volumes, Mains.C108_hang_counterexample, Mains.C108_ends_partial, Mains.C109_outsides_partial, Mains.C109_secondInside, Mains.C109_bonds_partial, Mains.C109_walls_counterexample, Mains.C110_lost_partial, Mains.C110_negative_counterexample, Mains.C111_post_partial, Mains.C111_lost_counterexample, Mains.C111_interval_counterexample, Mains.C111_around_partial, Mains.C112_relaxation_partial, Mains.C112_never_counterexample, Mains.C112_noise_counterexample, Mains.C113_count_partial, Mains.C113_end_counterexample, Mains.C113_frequency_partial, Mains.C113_short_counterexample, Mains.C114_phi_partial, Mains.C114_phi_counterexample, Rdf.C115_angles_partial, Rdf.C115_fraction_counterexample, Rdf.C115_opposite_counterexample, Rdf.C116_gl_partial, Rdf.C116_degree_counterexample, Rdf.C116_g6, Rdf.C116_no_bins_counterexample, Vtk.C117_vtk_partial, Vtk.C117_name_counterexample, Vtk.C117_size_counterexample, Vtk.C117_neighbours, Octave.C118_seam_2D_partial, Octave.C118_seam_1D_partial, Octave.C118_equal_counterexample, Octave.C119_kernel_partial, Octave.C119_history_counterexample, Octave.C120_blur, Octave.C120_radius, Octave.C120_size, Octave.C120_back, Octave.C122_fill_2D, Octave.C122_fill_3D_partial, Octave.C122_planes_counterexample, Octave.C123_isotropic_partial, Octave.C123_half_counterexample, Octave.C123_deconv_counterexample, Octave.C123_kernel, Dyn.C124_along_partial, Dyn.C124_mean_partial, Dyn.C124_empty_start_counterexample, Dyn.C124_window_counterexample, Dyn.C124_greedy_counterexample, Dyn.C125_makeDynamics_counterexample, Dyn.C125_export_counterexample, Dyn.C126_text, Dyn.C126_reopen_partial, Dyn.C126_directories_counterexample, Dyn.C126_drift_counterexample, Dyn.C128_boo, Dyn.C128_sboo_partial, Dyn.C128_outside_counterexample, Dyn.C128_twice_counterexample, Mains.C129_rows, Mains.C129_unit_partial, Mains.C129_radius_counterexample, Mains.C129_coarse_selection, Mains.C129_own_counterexample, Mains.C130_tensors, Mains.C130_coarse_partial, Mains.C130_first, Mains.C130_rerun_partial, Mains.C130_thin_counterexample, Mains.C130_stale_counterexample, Mains.C130_null_counterexample, Mains.C130_names_partial, Mains.C130_directory_counterexample, Mains.C131_voro, Mains.C131_flat_counterexample, Mains.C131_margin_counterexample, Mains.C132_mean_partial, Mains.C132_box, Mains.C132_sizes, Mains.C132_short_counterexample, Mains.C132_origin_counterexample, Mains.C133_values, Mains.C133_counts, Mains.C133_total, Mains.C133_symmetric, Mains.C133_twin, Parallel.C134_sequential, Parallel.C134_bounds_partial, Parallel.C134_lost_counterexample, Parallel.C134_single, Parallel.C135_drift_counterexample, Parallel.C135_drift_bounds_partial, Parallel.C135_msd_bounds_partial, Parallel.C135_msd_counterexample, Parallel.C135_msd_sequential, Parallel.C135_msd_single, Parallel.C135_ngp_sequential, Parallel.C135_ngp_counterexample, Parallel.C136_deterministic, Parallel.C136_table, Parallel.C136_shift, Parallel.C136_bin, Parallel.C136_divide, Parallel.C136_normalise, Parallel.C137_protected, Parallel.C137_wrong_file_counterexample, Parallel.C137_exception_counterexample, Parallel.C138_perm, Mains.C139_msd_partial, Mains.C139_msd_refused, Mains.C139_msd_average_counterexample, Mains.C139_msd_negative_counterexample, Mains.C139_msd_reversed_counterexample, Mains.C139_isf_partial, Mains.C139_isf_greedy_counterexample, Mains.C139_dynamics_counterexample, Mains.C139_dynamics_other, Mains.C140_drift, Mains.C141_bond_files, Mains.C141_no_bond_file, Mains.C141_range_counterexample, Mains.C141_written_bonds_counterexample, Mains.C142_series_partial, Mains.C142_single_partial, Mains.C142_again, Mains.C142_missing, Mains.C142_no_minSep_counterexample, Mains.C142_rounding_counterexample, Mains.C143_vtk_partial, Mains.C143_w4_counterexample, Mains.C143_one_argument_counterexample, Mains.C143_no_token_counterexample, Mains.C144_linker_partial, Mains.C144_displacements_partial, Mains.C144_missing, Mains.C144_displacements_counterexample, Mains.C145_rdf_partial, Mains.C145_periodic_rdf_partial, Mains.C145_periodic_counterexample, Mains.C145_missing, Mains.C145_empty, Mains.C145_no_bins_counterexample, Mains.C146_files_partial, Mains.C146_kernel_partial, Mains.C146_dimensions, Mains.C146_bad_kernel, Mains.C146_optional_kernel_counterexample, Mains.C146_small_counterexample, Mains.C146_negative_start_counterexample, Mains.C146_stale_counterexample, Mains.C147_first_run_partial, Mains.C147_known_distribution_partial, Mains.C147_second_run_partial, Mains.C147_after_linker, Mains.C147_small_counterexample, Mains.C147_empty_frame_counterexample, Mains.C147_no_trajectories, Mains.C147_missing, Mains.C147_no_frames_counterexample, Mains.C147_bonds, Mains.C147_bonds_counterexample, Py.Linker.C148_tables_partial, Py.Linker.C148_link_partial, Py.Linker.C148_update_partial, Py.Linker.C148_reload, Py.Linker.C148_save, Py.Linker.C148_nothing_counterexample, Py.Linker.C148_older_counterexample, Py.Periodic.C149_periodify, Py.Periodic.C149_symmetric, Py.Periodic.C149_dist_partial, Py.Periodic.C149_assign_counterexample, Py.Periodic.C149_no_period_counterexample, Py.Periodic.C149_displ_partial, Py.Average.C150_all_intervals, Py.Average.C150_window, Py.Average.C150_extra_counterexample, Py.Average.C150_overlap_partial, Py.Average.C150_last_lag_counterexample, Py.Average.C150_overlap_all_partial, Py.Average.C150_shape_counterexample, Py.Average.C150_correlation_partial, Py.Average.C150_correlation_window, Py.Average.C150_zero_lag_counterexample, Py.Periodic.C151_periodic_rdf, Py.Periodic.C152_shell_partial, Py.Periodic.C152_length_counterexample, Py.Periodic.C152_twice_counterexample, Mains.C153_lif, Mains.C153_only, Mains.C153_images_partial, Mains.C153_images_counterexample, Mains.C153_radii_partial, Mains.C153_radii_last_counterexample, Mains.C153_chain_partial, Py.Bonds.C154_bonds, Py.Bonds.C154_lengths, Py.Bonds.C154_list, Py.Bonds.C154_array, Py.Bonds.C154_neighbours, Py.Bonds.C154_back, Py.Bonds.C154_round_trip, Py.Bonds.C154_sorted_counterexample, Py.Bonds.C155_nearest_partial, Py.Bonds.C155_self_counterexample, Py.Bonds.C155_corner_counterexample, Py.Bonds.C155_line_counterexample, Py.Bonds.C155_edge_counterexample, Py.Bonds.C156_apart, Py.Bonds.C156_half_apart, Py.Bonds.C156_early_partial, Py.Bonds.C156_early_counterexample, Py.Bonds.C156_half_counterexample, Py.Bonds.C157_counts, Py.Bonds.C157_lengths, Py.Bonds.C157_total, Py.Grid.C158_cells, Py.Grid.C158_inside, Py.Grid.C158_pairs, Py.Grid.C158_complete, Py.Grid.C158_near, Py.Grid.C158_face_counterexample, PyLif.C159_offsets, PyLif.C159_series, PyLif.C159_headers, PyLif.C159_same_as_cpp, PyLif.C159_empty_counterexample, PyLif.C159_order_counterexample, PyLif.C159_cut_counterexample, PyLif.C159_diverge_counterexample, PyLif.C159_wrong_code, PyLif.C160_time_lapse, PyLif.C161_frame_partial, PyLif.C161_xzy_counterexample, PyLif.C161_range, PyLif.C161_memories, PyLif.C161_enum_partial, PyLif.C161_channels_counterexample, PyLif.C161_slice, PyLif.C162_preview_counterexample, Py.Exp.C163_read, Py.Exp.C163_same_as_cpp, Py.Exp.C163_names, Py.Exp.C164_p2tr_partial, Py.Exp.C164_same_as_cpp, Py.Exp.C164_unlinked_counterexample, Py.Exp.C164_refused, Py.Exp.C165_drift, Py.Exp.C165_load_all_partial, Py.Exp.C165_offset_counterexample, Py.Exp.C166_density, Py.Exp.C166_slab_default_counterexample, Py.Exp.C166_slab_counterexample, Py.Vol.C166_single_counterexample, Py.Exp.C167_excess, Py.Exp.C167_msd_partial, Py.Exp.C167_drift_counterexample, Py.Txp.C168_window, Py.Txp.C168_select_partial, Py.Txp.C168_offset_counterexample, Py.Txp.C168_mixed_counterexample, Py.Txp.C169_drift, Py.Txp.C169_constructor_partial, Py.Txp.C170_all_intervals, Py.Txp.C170_window, Py.Txp.C170_short_counterexample, Py.Txp.C170_export_isf_counterexample, Py.Txp.C170_nongaussian_all, Py.Txp.C170_nongaussian_window, Py.Broken.C171_broken, Py.Broken.C171_none_counterexample, Py.Broken.C171_window_partial, Py.Broken.C171_start_counterexample, Py.Broken.C172_reform_partial, Py.Broken.C172_closer_partial, Py.Broken.C172_equal_counterexample, Py.Broken.C172_apart_counterexample, Py.Broken.C172_empty_counterexample, Py.Broken.C173_around_partial, Py.Peak.C174_peaks_partial, Py.Peak.C174_decreasing, Py.Peak.C174_flat_counterexample, Py.PyBoo.C175_mean, Py.PyBoo.C175_neighbours_partial, Py.PyBoo.C175_single_partial, Py.PyBoo.C175_odd_counterexample, Py.PyBoo.C175_outside, Py.PyBoo.C175_angles, Py.PyBoo.C175_formula, Py.PyBoo.C175_parity, Py.PyBoo.C175_direction, Py.PyBoo.C176_mask, Py.PyBoo.C176_mean_partial, Py.PyBoo.C176_documented, Py.PyBoo.C176_itself_counterexample, Py.PyBoo.C176_twice_counterexample, Py.PyBoo.C177_orders, Py.PyBoo.C177_product, Py.PyBoo.C177_ql, Py.PyBoo.C177_norm, Py.PyBoo.C177_symmetric, Py.PyBoo.C177_bounded, Py.PyBoo.C177_outside, Py.PyBoo.C178_w3j, Py.PyBoo.C178_symmetric, Py.PyBoo.C178_wl, Py.PyBoo.C178_odd_counterexample, Py.PyBoo.C178_wl_odd_counterexample, Py.PyBoo.C178_outside, Py.PyBoo.C179_bond, Py.PyBoo.C179_ql, Py.PyBoo.C179_product, Py.PyBoo.C179_wl, Py.PyBoo.C179_real, Py.PyBoo.C179_addition, Py.PyBoo.C179_unit, Py.PyBoo.C179_bounded, Py.PyBoo.C179_isometry, Py.PyBoo.C180_bins_partial, Py.PyBoo.C180_edge_counterexample, Py.PyBoo.C180_bounded, Py.PyBoo.C180_lengths, Py.Phase.C181_log, Py.Phase.C181_close_packing, Py.Phase.C181_fraction, Py.Phase.C181_osmotic, Py.Phase.C181_variable, Py.Phase.C182_derivatives, Py.Phase.C182_reference, Py.Phase.C182_insertion_partial, Py.Phase.C182_insertion_counterexample, Py.Phase.C182_free, Py.Phase.C182_xp2th, Py.Phase.C182_gibbs_duhem, Py.Phase.C182_dilute, Py.Phase.C183_poly1d, Py.Phase.C183_compressibility, Py.Phase.C183_derivatives, Py.Phase.C183_leFevre, Py.Phase.C183_ideal_gas, Py.Phase.C183_liu, Py.Phase.C183_numeric, Py.Phase.C183_hall_counterexample, Py.Phase.C183_increasing, Py.Phase.C184_second, Py.Phase.C184_kolafa_counterexample, Py.Phase.C184_liu_toint, Py.Phase.C184_gibbs_duhem, Py.Phase.C184_close, Py.Phase.C184_variables, Py.Phase.C185_critical, Py.Phase.C185_critical_point, Py.Phase.C185_exists, Py.Phase.C185_spinodal, Py.Phase.C185_spinodal_sides, Py.Phase.C185_binodal, Py.Phase.C185_trivial_counterexample, Py.Phase.C186_coexistence, Py.Phase.C186_constant, Py.Phase.C186_hard_spheres_counterexample, Py.Phase.C186_all, Py.Phase.C186_triple, Py.Phase.C186_end_point, Py.Phase.C187_linspace, Py.Phase.C187_gas_liquid, Py.Phase.C187_unsorted_counterexample, Py.Phase.C187_lines, Py.Phase.C187_generate, Py.Phase.C187_twice_counterexample, Py.Track.C188_scales, Py.Track.C188_center, Py.Track.C188_distance_counterexample, Py.Track.C188_derivatives, Py.Track.C188_response, Py.Track.C189_newton, Py.Track.C189_fixed, Py.Track.C189_isolated, Py.Track.C189_same, Py.Track.C189_errors, Py.Track.C190_solves_partial, Py.Track.C190_isolated, Py.Track.C190_default, Py.Track.C190_errors, Py.Track.C190_neighbour_counterexample, Py.Track.C191_spheres, Py.Track.C191_rods_partial, Py.Track.C191_rods_counterexample, Py.Track.C192_split, Py.Track.C192_zero_radius_counterexample, Py.Track.C192_label, Py.Track.C193_peaks, Py.Track.C193_edges, Py.Track.C193_edge_counterexample, Py.Track.C193_line, Py.Track.C193_exchange_counterexample, Py.Track.C194_minima, Py.Track.C194_subpix, Py.Track.C194_layers, Py.Track.C194_radius, Py.Track.C195_shapes, Py.Track.C195_overlap, Py.Track.C195_inside, Py.Track.C195_empty_counterexample, Py.Track.C195_k_counterexample, Py.Track.C195_position_counterexample, Py.Micro.C196_logderive, Py.Micro.C196_power, Py.Micro.C196_viscous, Py.Micro.C196_elastic, Py.Micro.C196_second_order, Py.Micro.C196_refused, Py.Micro.C197_default, Py.Micro.C197_index_counterexample, Py.Micro.C197_unit_counterexample, Py.Micro.C197_single_counterexample, Py.PhaseCor.C198_peak, Py.PhaseCor.C198_stripes_counterexample, Py.PhaseCor.C198_both, Py.PhaseCor.C198_confidence, Py.PhaseCor.C198_displacement, Py.PhaseCor.C199_windows, Py.PhaseCor.C199_transposed_counterexample, Py.PhaseCor.C199_coordinates, Py.PhaseCor.C199_reversed_counterexample, Py.Ddm.C200_spectre, Py.Ddm.C200_translation, Py.Ddm.C200_moved, Py.Ddm.C200_couples, Py.Ddm.C200_navmax_counterexample, Py.Ddm.C200_average, Py.Ddm.C200_intervals, Py.Ddm.C200_single_counterexample, Py.Ddm.C201_mean, Py.Ddm.C201_isotropic, Py.Ddm.C201_lost, Py.Ddm.C201_ddm, Py.Ddm.C201_static, Py.Voro.C202_bonds, Py.Voro.C202_second, Py.Voro.C203_mean, Py.Vtk.C204_repeat_counterexample, Py.Vtk.C204_dilate, Py.Vtk.C204_dilate_counterexample, Py.Vtk.C205_last, Py.Vtk.C205_mean_partial, Py.Vtk.C205_abscissa_counterexample, Py.Vtk.C205_limit_counterexample, Py.Vtk.C205_repeat_counterexample, Py.Vtk.C206_roundtrip_partial, Py.Vtk.C206_cells_as_points_counterexample, Py.Vtk.C206_empty_counterexample, Py.Life.C207_life_partial, Py.Life.C207_zero_counterexample, Py.Life.C207_last, Py.Life.C208_slab, Py.Life.C208_slab_not_all, Py.Life.C208_slab_partial, Py.Life.C208_all_times_counterexample, Py.Life.C208_jump_counterexample, Py.Life.C208_subset, Py.Life.C208_null, Py.Life.C208_null_partial, Py.Life.C208_negative_counterexample, Py.Life.C208_offset_counterexample, Py.Life.C209_correlation, Py.Life.C209_one_counterexample, Py.Life.C209_last_counterexample, Py.Life.C209_first, Py.Life.C210_dilate, Py.Life.C210_own_counterexample, Py.Life.C210_isolated_counterexample, Py.Life.C210_average, Py.Life.C210_bounds, Py.StatHist.C211_decimate, Py.StatHist.C211_total, Py.StatHist.C211_last_counterexample, Py.StatHist.C211_alias_counterexample, Py.StatHist.C211_mean, Py.StatHist.C211_map_partial, Py.StatHist.C211_mark_counterexample, Py.StatHist.C212_shift, Py.StatHist.C212_constant_counterexample, Py.StatHist.C212_self, Py.StatHist.C212_qlm_counterexample, Py.StatHist.C213_dists_counterexample, Py.StatHist.C213_get, Py.StatHist.C213_double_counterexample, Py.StatHist.C213_image, Py.StatHist.C213_white, Py.Follow.C214_bonds_partial, Py.Follow.C214_clusters_partial, Py.Follow.C215_crea_dest, Py.Follow.C215_length_partial, Py.Follow.C215_offset_counterexample, Mains.C216_columns_partial, Mains.C216_first_partial, Mains.C216_missing_counterexample, Mains.C216_hole_counterexample, Mains.C217_span_partial, Py.Pairs.C218_links, Py.Pairs.C218_range_counterexample, Py.Pairs.C218_size_counterexample, Py.Pairs.C219_srdf, Py.Pairs.C219_planar, Py.Pairs.C219_slice, Py.Pairs.C219_correlation, Py.Pairs.C220_value_partial, Py.Pairs.C220_sign, Py.Pairs.C220_volume_counterexample, Py.Sq.C221_value, Py.Sq.C221_periodic, Py.Sq.C221_one, Py.Sq.C222_vectors_partial, Py.Sq.C222_outer_counterexample, Py.Sq.C222_value, Py.Sq.C222_periodic, Py.Sq.C222_axis_counterexample, Py.Sq.C222_small_counterexample, Py.Sq.C223_factor_partial, Py.Sq.C223_hann_counterexample, Py.Sq.C223_unseen_counterexample, Py.Sq.C223_distance, Py.Sq.C223_pairs_partial, Py.Sq.C223_order_counterexample, Py.Pbox.C224_correl_partial, Py.Pbox.C224_binary_partial, Py.Pbox.C224_crossing_counterexample, Py.Pbox.C225_rdf_partial, Py.Pbox.C225_binary_partial, Py.Pbox.C225_sep_counterexample, Py.Pbox.C226_nearest_partial, Py.Pbox.C226_crossing_counterexample, Py.Pbox.C226_refused, Py.Pbox.C228_all_partial, Py.Pbox.C228_first_partial, Py.Pbox.C228_ends_counterexample, Py.Brown.C229_last_partial, Py.Brown.C229_pairs_partial, Py.Brown.C229_repeated_counterexample, Py.Brown.C229_limit_counterexample, Py.Brown.C230_components, Py.Brown.C230_contribution, Py.Brown.C230_axis_counterexample, Py.Brown.C230_spoiled_counterexample, Py.Brown.C230_error, Py.Brown.C230_spread_counterexample, DynExport.C231_first_counterexample, Py.LinkSave.C232_film_partial, Py.LinkSave.C232_empty_partial, Py.LinkSave.C232_single_counterexample, Py.LinkSave.C232_short_counterexample, Py.LinkSave.C232_weave_counterexample, Py.Vol.C233_density_partial, Py.Vol.C233_single_counterexample, Py.Vol.C234_fraction_partial, Py.Vol.C234_single_counterexample, Py.Vol.C235_tau_partial, Py.Vol.C235_program_partial, Py.Vol.C235_short_counterexample, Py.Pisf.C236_images_partial, Py.Pisf.C236_values, Py.Pisf.C236_images_counterexample, Py.Local.C237_half_partial, Py.Local.C237_half_counterexample, Py.Local.C237_singular, Py.Local.C238_ratio, Py.Local.C238_saddle, Py.Local.C238_valley, Py.Local.C239_pixels, Py.Local.C239_square_partial, Py.Local.C239_mixed_counterexample, Py.Blob.C240_sound, Py.Blob.C240_kept, Py.Blob.C240_half_counterexample, Py.Blob.C241_radius, Py.Blob.C241_shift_counterexample, Py.Blob.C241_head_counterexample, Py.GridVtk.C242_roundtrip_partial, Py.Bar.C243_bar_partial, Py.Bar.C243_late_counterexample, Py.Bar.C243_wide_counterexample, Py.Bar.C243_fails_counterexample, Mains.C244_cells_partial, Mains.Cloud.C245_read_partial, Mains.Cloud.C245_surf_counterexample, Py.VoroFile.C247_volume_partial, Py.VoroFile.C247_missing_counterexample, Py.VoroFile.C247_faces_counterexample, Py.VoroFile.C248_network_partial, Py.VoroFile.C248_last_counterexample, Mains.BooSerie.C249_files_partial, Mains.BooSerie.C249_zeros_counterexample, Py.Color.C250_channels, Py.Color.C250_sides_partial, Py.Color.C250_continuous_partial, Py.Color.C250_ends, Py.Color.C250_distance, Py.Color.C250_one_counterexample, Py.Piles.C251_cuts, Py.Piles.C251_pieces_partial, Py.Piles.C251_first_counterexample, Py.Piles.C251_overlap, Py.Piles.C251_nearest_partial, Py.Piles.C251_beyond_counterexample, Py.Radius.C252_neighbourhood, Py.Radius.C252_distance, Py.Radius.C252_profile_partial, Py.Radius.C252_byte_counterexample, Py.LifDispl.C253_peak, Py.LifDispl.C253_square_partial, Py.LifDispl.C253_rectangle_counterexample, Py.LifDispl.C253_window_counterexample, Py.LoadPiles.C254_clusters_partial, Py.LoadPiles.C254_end_counterexample, Py.LoadPiles.C254_few_counterexample, Py.LoadPiles.C254_offset_counterexample, Py.LoadPiles.C254_position, Py.ClusterSize.C255_size_partial, Py.Droplet.C256_terminated, Py.Droplet.C256_starting_partial, Py.Droplet.C256_first_counterexample, Py.Pov.C257_read_partial, Py.Pov.C257_tuple_counterexample, Py.Envelope.C259_peaks, Py.Envelope.C259_found_partial, Py.Envelope.C259_symmetric_counterexample, Py.Nb.C260_numbers_partial, Py.Nb.C260_single_counterexample, Py.Nb.C260_stale_counterexample, Py.CloudSets.C261_inside, Py.CloudSets.C261_sets_partial, Py.CloudSets.C261_threshold_counterexample, Py.Ageing.C263_intervals_partial, Py.Ageing.C263_refused_counterexample, Py.Ageing.C263_auto_counterexample, Py.Ageing.C263_files, Py.Commands.C264_linkboo, Py.Commands.C264_totalRdf, Py.Commands.C264_dynamics, Py.Commands.C264_link_partial, Py.Commands.C264_link_counterexample, Py.Commands.C264_cut_counterexample, Py.Commands.C264_boo_counterexample, Py.Guess.C265_dt_partial, Py.Guess.C265_seconds_partial, Py.Guess.C265_word_counterexample, Py.Guess.C265_size_partial, Py.Guess.C265_mixed_counterexample, Py.G6Mean.C266_ratio, Py.G6Mean.C266_sum_counterexample, Py.EnvTotal.C267_kept, Py.EnvTotal.C267_sound, Py.EnvTotal.C267_complete_partial, Py.EnvTotal.C267_maxima.
