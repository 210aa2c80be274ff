{"id": "C01", "title": "Linking frames keeps a one-to-one assignment between positions and trajectories", "statement": "After linking any number of frames with TrajMap::push_back, every position of every frame belongs to exactly one trajectory and no trajectory owns two positions of the same frame; trajectory numbers in use are exactly 0..getNbTraj()-1; getFrameSizes() reports the number of positions given for each frame.", "quantifier": "all first-frame sizes, all histories of push_back calls, all candidate tables whose followers are valid positions", "why_tests_cant": "Depends on every possible history of candidate tables (ties, conflicts, empty frames, positions without candidate); a test fixes one history.", "anchors": ["lib/traj.cpp: TrajMap::TrajMap, TrajMap::push_back, TrajMap::getFrameSizes", "lib/traj.hpp: struct TrajMap"]}
{"id": "C02", "title": "Links are chosen among the candidates, shortest first", "statement": "When a new frame is linked, a trajectory of the previous frame is only ever prolonged by one of its declared candidate followers, and any declared candidate pair that was not linked lost to a link of smaller or equal distance that uses the same trajectory or the same position (stable greedy matching). Positions that no link reaches start new trajectories numbered consecutively in increasing position order.", "quantifier": "all previous frames, all candidate tables, all distances including ties", "why_tests_cant": "The greedy/stability condition is about all conflicting candidate pairs at once.", "anchors": ["lib/traj.cpp: TrajMap::push_back"]}
{"id": "C03", "title": "Trajectory index and position index are inverse of each other", "statement": "For a TrajIndex built from a TrajMap: trajectory tr exists at time t with position p iff the map linked p and tr at time t; the inverse index at time t maps p back to tr; each trajectory occupies a contiguous time interval; getFrameSizes/getMaxTime/longest_span agree with it; trajToPos and posToTraj are mutually inverse on trajectories that exist at t.", "quantifier": "all linking histories, all times, positions and trajectories", "why_tests_cant": "Round trip has to hold for every history of births and deaths.", "anchors": ["lib/traj.cpp: TrajIndex::TrajIndex, TrajIndex::makeInverse, TrajIndex::getFrameSizes, TrajIndex::getMaxTime, TrajIndex::longest_span", "lib/traj.hpp: TrajIndex::trajToPos, TrajIndex::posToTraj, Converter, Inverser"]}
{"id": "C04", "title": "Trajectory files round trip", "statement": "Writing a TrajIndex to a stream and reading it back gives the same list of trajectories (same start times and same position indices).", "quantifier": "all lists of trajectories", "why_tests_cant": "Text format round trip over all contents, including empty lists, empty trajectories and single-step trajectories.", "anchors": ["lib/traj.cpp: operator<<(ostream&,const Traj&), operator>>(istream&,Traj&), operator<<(ostream&,const TrajIndex&), operator>>(istream&,TrajIndex&)"]}
{"id": "C05", "title": "A trajectory answers existence queries consistently", "statement": "exist(t) holds exactly for the times at which operator[] returns a stored step; span(t0,t1) with t0<=t1 holds exactly when the trajectory exists at every time between t0 and t1; subtraj(t0,t1) returns the same steps on [t0,t1]; push_back prolongs by exactly one time step.", "quantifier": "all start times, lengths and query times (size_t arithmetic wraps)", "why_tests_cant": "Wrap-around of unsigned arithmetic at the empty trajectory / time zero boundary is not sampled by tests.", "anchors": ["lib/traj.hpp: Traj::exist, Traj::span, Traj::last_time, Traj::operator[], Traj::push_back", "lib/traj.cpp: Traj::subtraj"]}
{"id": "C06", "title": "Frame-by-frame linking in the multiscale tracker keeps trajectories and positions in bijection", "statement": "After any sequence of accepted add_Frame calls, in every frame each position belongs to exactly one trajectory, trajectory numbers are exactly 0..nb_trajs()-1, the inverse index agrees with the trajectories, and links are chosen greedily by distance among the declared pairs.", "quantifier": "all initial sizes, all histories of add_Frame(frame_size, distances, p_from, p_to), all ties", "why_tests_cant": "History property with arbitrary conflicts.", "anchors": ["multiscale/src/traj.cpp: TrajIndex::add_Frame", "multiscale/src/traj.hpp: class TrajIndex, class Traj"]}
{"id": "C07", "title": "A rejected frame leaves the trajectory index unchanged and an accepted explicit frame is valid", "statement": "add_Frame either throws invalid_argument leaving the index exactly as it was, or performs no out-of-range access and leaves a valid index (every position in exactly one trajectory, contiguous trajectories, consecutive numbering).", "quantifier": "all index states reachable by add_Frame, all arguments", "why_tests_cant": "Needs all malformed arguments, not the few a test author thinks about.", "anchors": ["multiscale/src/traj.hpp: TrajIndex::add_Frame (template)", "multiscale/src/traj.cpp: TrajIndex::add_Frame"]}
{"id": "C08", "title": "Multiscale trajectory span agrees with existence", "statement": "span(t0,t1), t0<=t1, is true exactly when the trajectory exists at t0 and at t1; operator[] at an existing time returns the step pushed for that time.", "quantifier": "all trajectories and times", "why_tests_cant": "Off-by-one at the end of the trajectory.", "anchors": ["multiscale/src/traj.hpp: Traj::span, Traj::exist, Traj::get_finish"]}
{"id": "C09", "title": "Cluster segregation returns exactly the connected components", "statement": "segregate(population, neighbours) splits the population into pairwise disjoint non-empty clusters covering the population, two members being in the same cluster iff they are linked by a path of neighbour relations inside the population; segregateAll does it for all particles. Terminates for every graph.", "quantifier": "all finite populations and all neighbour lists (cyclic, dense, disconnected)", "why_tests_cant": "Graph property over all graphs.", "anchors": ["lib/dynamicClusters.cpp: growCluster, segregate, segregateAll"]}
{"id": "C10", "title": "Bonds are unordered pairs", "statement": "Bond(a,b) and Bond(b,a) are the same bond, low() <= high(), and the ordering used by BondSet is a strict total order on unordered pairs, so that a BondSet never holds the same pair twice; printing and reading a bond gives the bond back.", "quantifier": "all pairs of particle indices", "why_tests_cant": "Universal algebraic laws.", "anchors": ["lib/particles.hpp: class Bond, operator<<, operator>>"]}
{"id": "C11", "title": "Neighbour lists and bond sets represent the same graph", "statement": "ngb2bonds lists each bonded pair of a symmetric neighbour list exactly once and never a self bond; rebuilding the neighbour list from the bond set gives back the same (sorted) neighbour list.", "quantifier": "all symmetric, irreflexive, sorted neighbour lists / all bond sets inside the particle range", "why_tests_cant": "Round trip over all graphs.", "anchors": ["lib/particles.cpp: ngb2bonds, Particles::makeNgbList"]}
{"id": "C12", "title": "The spatial tree never loses or invents an item", "statement": "After any sequence of insertions into the R* tree (with all splits, forced reinsertions and root growth they trigger) the multiset of items stored in the tree is the multiset of inserted items with their boxes, and GetSize() counts them.", "quantifier": "all insertion histories, all item boxes, any outcome of the subtree-choice/split heuristics", "why_tests_cant": "Splits and reinsertions cascade; the interesting histories are longer than tests try.", "anchors": ["lib/RStarTree/RStarTree.h: RStarTree::Insert, InsertInternal, OverflowTreatment, Reinsert, Split"]}
{"id": "C13", "title": "Tree queries return exactly what a linear scan would return", "statement": "A box query returns each stored item whose box is enclosed by (resp. overlaps) the query box exactly once, and nothing else.", "quantifier": "all trees reachable by insertions, removals and translations, all query boxes", "why_tests_cant": "Holds or fails depending on tree shape and on boxes touching the query boundary.", "anchors": ["lib/RStarTree/RStarTree.h: RStarTree::Query", "lib/RStarTree/RStarVisitor.h: RStarAcceptEnclosing, RStarAcceptOverlapping", "lib/index.cpp: RStarIndex_S::operator(), BruteSpatialIndex::operator()"]}
{"id": "C14", "title": "The tree stays balanced and within its fan-out limits", "statement": "In every reachable tree all leaves are at the same depth, no node has more than max_child_items children, nodes created by splits have at least min_child_items children, and every node's box contains the boxes of everything below it.", "quantifier": "all insertion histories and heuristic outcomes", "why_tests_cant": "Structural invariant over unbounded histories.", "anchors": ["lib/RStarTree/RStarTree.h: InsertInternal, Split, Reinsert"]}
{"id": "C15", "title": "Removal removes exactly the accepted items", "statement": "Remove(acceptor, remover) deletes exactly the items selected, keeps all the others reachable (including the ones reinserted because their node became too small), and keeps GetSize() right.", "quantifier": "all trees, all selections", "why_tests_cant": "Under-full nodes trigger reinsertion cascades.", "anchors": ["lib/RStarTree/RStarTree.h: RStarTree::Remove, RemoveBoundedArea, RemoveFunctor"]}
{"id": "C16", "title": "Translating the index is the same as translating every item", "statement": "After index += v, querying box b+v gives what querying b gave before; and the content is the original content translated by v.", "quantifier": "all trees, translations and queries", "why_tests_cant": "Must hold for every tree shape.", "anchors": ["lib/index.cpp: RStarIndex_S::operator+=, BruteSpatialIndex::operator+=", "lib/RStarTree/RStarBoundingBox.h: TranslateBoundingBox, operator+="]}
{"id": "C17", "title": "The overall bounding box is the tight box of the content", "statement": "getOverallBox() of a spatial index is the smallest box containing all inserted boxes.", "quantifier": "all insertion histories, any sign of coordinates", "why_tests_cant": "Depends on splits/reinsertions recomputing bounds, visible only with more than 32 items.", "anchors": ["lib/index.cpp: RStarIndex_S::getOverallBox, BruteSpatialIndex::getOverallBox", "lib/RStarTree/RStarBoundingBox.h: reset, stretch", "lib/RStarTree/RStarTree.h: Split, Reinsert"]}
{"id": "C18", "title": "Selecting inside a margin", "statement": "getInside(margin) returns exactly the items whose box lies inside the overall box shrunk by margin on every axis wider than 2*margin (the z axis being left alone when asked).", "quantifier": "all indices, margins", "why_tests_cant": "Per-axis exceptions.", "anchors": ["lib/index.hpp: SpatialIndex::getInside", "lib/index.cpp: SpatialIndex::getInside"]}
{"id": "C19", "title": "Neighbour search is exact", "statement": "getEuclidianNeighbours(i or position, range) returns exactly the indices of the particles at Euclidean distance strictly less than range (excluding the particle itself), each once, in increasing order; the variant sorted by distance returns the same set with exact squared distances in increasing order.", "quantifier": "all particle sets, indexes, centres and positive ranges", "why_tests_cant": "Correct for every geometry, in particular for particles on the boundary of the pre-selection box.", "anchors": ["lib/particles.cpp: Particles::getEuclidianNeighbours, getEuclidianNeighboursBySqDist"]}
{"id": "C20", "title": "Neighbour lists are symmetric", "statement": "makeNgbList(bondLength) gives a symmetric, irreflexive, sorted neighbour list where q is in the list of p iff their distance is less than the bond length in radius units.", "quantifier": "all particle sets and bond lengths", "why_tests_cant": "Symmetry has to hold for all pairs.", "anchors": ["lib/particles.cpp: Particles::makeNgbList"]}
{"id": "C21", "title": "Nearest neighbour search returns a nearest particle", "statement": "getNearestNeighbour(center, range) terminates and returns a particle such that no other particle is closer to the centre, whenever the set is not empty and the initial range is positive.", "quantifier": "all non empty sets, centres, ranges", "why_tests_cant": "Growth loop; termination and optimality for all inputs.", "anchors": ["lib/particles.cpp: Particles::getNearestNeighbour"]}
{"id": "C22", "title": "Cutting too-close particles keeps a maximal separated subset", "statement": "cut(sep) keeps particles pairwise at distance >= sep, every discarded particle being closer than sep to a kept particle of smaller index, order being preserved.", "quantifier": "all particle sets and separations", "why_tests_cant": "Pairwise property.", "anchors": ["lib/particles.cpp: Particles::cut"]}
{"id": "C23", "title": "Removing short range neighbours discards both members of each close pair", "statement": "removeShortRange(sep) keeps exactly the particles that have no other particle closer than sep.", "quantifier": "all particle sets and separations", "why_tests_cant": "Pairwise property.", "anchors": ["lib/particles.cpp: Particles::removeShortRange"]}
{"id": "C24", "title": "Translating a particle set does not change who neighbours whom", "statement": "After particles += v, coordinates, bounding box and spatial index all move together, so that neighbour queries give the same indices as before.", "quantifier": "all indexed particle sets and translations", "why_tests_cant": "Needs index/coordinates coherence for all geometries.", "anchors": ["lib/particles.cpp: Particles::operator+="]}
{"id": "C25", "title": "Rescaling a particle set keeps the index coherent", "statement": "After particles *= s the spatial index still answers neighbour queries exactly for the rescaled coordinates.", "quantifier": "all indexed particle sets and scale factors", "why_tests_cant": "Stale-index bug needs a query after the scaling.", "anchors": ["lib/particles.cpp: Particles::operator*="]}
{"id": "C26", "title": "Periodic wrapping gives the minimal image", "statement": "For a displacement between two points of the periodic box, periodify returns the representative congruent modulo the period with each component in (-L/2, L/2], which is the shortest image.", "quantifier": "all box sizes, all displacements between points of the box", "why_tests_cant": "Boundary values L/2 and -L/2.", "anchors": ["lib/periodic.cpp: PeriodicParticles::periodify, getDiff, getPeriod"]}
{"id": "C27", "title": "Periodic distances are symmetric", "statement": "The squared distance computed from getDiff(p,q) equals the one of getDiff(q,p), is independent of which periodic images are stored inside the box, and zero iff same point modulo the periods.", "quantifier": "all pairs of points of the box", "why_tests_cant": "All pairs including half-period ones.", "anchors": ["lib/periodic.cpp: PeriodicParticles::getDiff"]}
{"id": "C28", "title": "Periodic enclosure selects by image", "statement": "selectEnclosed(b) in periodic conditions returns exactly the particles one of whose images (shifted by -1, 0 or 1 period on each axis) lies in b, each once.", "quantifier": "all particle sets, all query boxes", "why_tests_cant": "27 image unions; duplicates.", "anchors": ["lib/periodic.cpp: PeriodicParticles::selectEnclosed"]}
{"id": "C29", "title": "Interval queries on the temporal index", "statement": "The temporal index queried with an interval returns exactly the inserted items whose own interval spans (contains) the queried interval, each once.", "quantifier": "all insertion histories and intervals", "why_tests_cant": "Off-by-one in two nested loops.", "anchors": ["lib/index.cpp: TreeIndex_T::insert, TreeIndex_T::operator()", "lib/index.hpp: class TreeIndex_T"]}
{"id": "C30", "title": "Time-averaged field is the window mean along the trajectory", "statement": "After pushing all frames, the value of trajectory tr at time t of a DynamicField with averaging a is the mean of the non-null values of tr over the window [t-a/2, t+a/2] clipped to the recorded frames; the pushing order of frames being chronological.", "quantifier": "all trajectory indexes, numbers of frames, window sizes and values", "why_tests_cant": "Sliding-window state machine with boundary effects at both ends.", "anchors": ["lib/fields.hpp: DynamicField::push_back, DynamicField::DynamicField"]}
{"id": "C31", "title": "Overlap removal keeps a maximal non-overlapping set, brightest first", "statement": "removeOverlapping keeps centers pairwise non overlapping (according to the documented tolerance) and every removed center overlaps with a kept center of lower-or-equal (better) intensity; the tree version agrees with the brute force one.", "quantifier": "all lists of centers", "why_tests_cant": "Pairwise and order dependent.", "anchors": ["multiscale/src/center.hpp: removeOverlapping, removeOverlapping_brute_force, removeHalfOverlapping"]}
{"id": "C32", "title": "3D reconstruction loses no 2D center", "statement": "After any number of pushed frames each accepted 2D center is in exactly one cluster, clusters contain at most one center per frame over consecutive frames, the number of clusters equals the number of trajectories, and cluster i lists the centers of trajectory i.", "quantifier": "all histories of pushed frames", "why_tests_cant": "History property, lockstep of two structures.", "anchors": ["multiscale/src/reconstructor.cpp: Reconstructor::push_back, clear", "multiscale/src/reconstructor.hpp"]}
{"id": "C33", "title": "Splitting clusters conserves centers", "statement": "split_clusters only cuts clusters: the concatenation of the pieces of a cluster, in order, is the original cluster; no center is lost or duplicated.", "quantifier": "all cluster lists", "why_tests_cant": "Iterator splicing code.", "anchors": ["multiscale/src/reconstructor.cpp: Reconstructor::split_clusters"]}
{"id": "C34", "title": "Fast candidate linking equals brute force linking", "statement": "links_by_RStarTree and links_by_brute_force produce the same set of candidate pairs (with the same distances) between two frames: exactly the pairs closer than the maximum distance.", "quantifier": "all pairs of frames", "why_tests_cant": "Must hold for all geometries incl. boundaries of the boxes.", "anchors": ["multiscale/src/reconstructor.cpp: links_by_RStarTree, links_by_brute_force"]}
{"id": "C35", "title": "Bond-order coefficients survive the binary format", "statement": "BooData -> toBinary -> BooData is the identity on all 36 complex coefficients (72 doubles per particle) and file export/import of whole particle sets preserves the number of particles and all coefficients.", "quantifier": "all coefficient values, all numbers of particles", "why_tests_cant": "Index arithmetic over all (l,m) and all particles.", "anchors": ["lib/boo_data.cpp: BooData::toBinary, BooData(const double*)", "lib/particles.cpp: exportQlm, load_q6m/loadBoo"]}
{"id": "C36", "title": "Every (l,m) has its own storage slot", "statement": "For even l<=10 and |m|<=l, (l,m>=0) are stored in distinct slots covering all 36; reading (l,-m) gives (-1)^m times the conjugate of (l,m); the order iteration tables agree with the slot formula.", "quantifier": "all l, m", "why_tests_cant": "Whole table against formula.", "anchors": ["lib/boo_data.hpp: BooData::operator(), BooData::operator[]", "lib/boo_data.cpp: i2l, i2m"]}
{"id": "C37", "title": "Bond-order scalar products behave as a normalised inner product", "statement": "innerProduct(a,b) is symmetric (real part of a Hermitian product), innerProduct(a,a) is the squared norm used by getQl, is zero only for the null tensor, and |normedProduct(a,b)| <= 1.", "quantifier": "all coefficient sets", "why_tests_cant": "Inequality over all inputs.", "anchors": ["lib/boo_data.cpp: BooData::innerProduct, getSumNorm, normedProduct, getQl"]}
{"id": "C38", "title": "Wigner 3j coefficients lookup", "statement": "getW3j addresses, for each even l<=10 and all m1+m2+m3=0, one in-range table slot, invariant under permutation of the m's and global sign change, and distinct for non-equivalent triples.", "quantifier": "all l, m1, m2, m3", "why_tests_cant": "Table arithmetic over the whole domain.", "anchors": ["lib/boo_data.cpp: BooData::getW3j, w3j tables"]}
{"id": "C39", "title": "File series naming", "statement": "For a pattern name containing the token and digits, series%step gives the original name at the original step; distinct steps give distinct names; names of steps that fit the digit width have the same length; changeExt/addPostfix only touch the extension/prefix. Names lacking the token are rejected.", "quantifier": "all file names, tokens, steps and offsets", "why_tests_cant": "String arithmetic over all names.", "anchors": ["lib/files_series.cpp: FileSerie::FileSerie, operator%, changeExt, addPostfix, head, get0th"]}
{"id": "C40", "title": "Particle DAT file round trip", "statement": "exportToFile then constructing from the file gives the same number of particles, same bounding box size and same coordinates (up to text number formatting).", "quantifier": "all particle sets", "why_tests_cant": "Text format over all contents.", "anchors": ["lib/particles.cpp: Particles::exportToFile, Particles::Particles(const string&)"]}
{"id": "C41", "title": "Drift removal cancels the mean displacement", "statement": "removeDrift makes the average displacement of the trajectories spanning consecutive frames zero for all consecutive frames, shifts are non negative on each axis, and displacements between particles of the same frame are unchanged.", "quantifier": "all trajectories and positions", "why_tests_cant": "Cumulated sums over all frames.", "anchors": ["lib/dynamicParticles.cpp: removeDrift, getDrift"]}
{"id": "C42", "title": "Mean square displacement is the average over all pairs of times", "statement": "getMSD(selection,t0,t1,t3) at lag dt is the average over selected trajectories and over all start times of the squared displacement over dt; it is non negative and zero at lag 0.", "quantifier": "all trajectory sets and time windows", "why_tests_cant": "Bounds of the nested loops.", "anchors": ["lib/dynamicParticles.cpp: getMSD, getSD"]}
{"id": "C43", "title": "Trajectories spanning an interval", "statement": "selectSpanning(interval) returns exactly the trajectories that exist at every time of the interval, in increasing order without duplicates.", "quantifier": "all trajectory indexes and intervals", "why_tests_cant": "All histories.", "anchors": ["lib/dynamicParticles.cpp: selectSpanning"]}
{"id": "C44", "title": "Lost neighbours", "statement": "getLostNgbs(tr,t0,t1) is the set of trajectories bonded to tr at t0 and not at t1, expressed in trajectory numbers whatever the positions' numbering in each frame.", "quantifier": "all trajectory indexes and neighbour lists", "why_tests_cant": "Position renumbering between frames.", "anchors": ["lib/dynamicParticles.cpp: getLostNgbs, getNbLostNgbs"]}
{"id": "C45", "title": "Cage decomposition partitions the trajectory", "statement": "Splitting a trajectory by cage jumps terminates and yields consecutive, non-overlapping cages that cover all its time steps.", "quantifier": "all trajectories and positive thresholds", "why_tests_cant": "Recursion over all position series.", "anchors": ["lib/dynamicParticles.cpp: splitByCageJump, getCages"]}
{"id": "C46", "title": "Blob detection finds every strict local minimum once", "statement": "initialize_binary registers each pixel/scale at most once, only registers non-strict local minima of the scale space that pass the filters, and registers every strict negative local minimum lying in the scanned region that passes the filters.", "quantifier": "all images", "why_tests_cant": "The block algorithm must be right for every image and alignment.", "anchors": ["multiscale/src/octavefinder.cpp: OctaveFinder::initialize_binary, OctaveFinder1D::initialize_binary, CircularZ4D::blockmin, CircularZ4D::is_localmin"]}
{"id": "C47", "title": "The sliding window of planes shows the right planes", "statement": "At every step of the 3D detection, reading plane k (from -3 to 4) of the circular buffer gives plane z+k of the volume, loads never cross the buffer end and never read outside the volume.", "quantifier": "all volume depths and positions of the window", "why_tests_cant": "Modular arithmetic along unbounded histories.", "anchors": ["multiscale/src/octavefinder.cpp: CircularZ4D::loadplanes, OctaveFinder3D::initialize_binary", "multiscale/src/octavefinder.hpp: CircularZ4D::getG, operator++"]}
{"id": "C48", "title": "The octave pyramid halves sizes and maps coordinates back", "statement": "The finder always builds octave 0 with doubled size and then octaves of sizes n, n/2, n/4... as long as the size is at least the minimum; downscaling reads only existing pixels and averages them; scale of octave o is 2^(o-1).", "quantifier": "all image sizes", "why_tests_cant": "All sizes including odd and tiny ones.", "anchors": ["multiscale/src/multiscalefinder.cpp: MultiscaleFinder2D, MultiscaleFinder1D, MultiscaleFinder3D, downscale, upscale", "multiscale/src/multiscalefinder.hpp: subpix"]}
{"id": "C49", "title": "Reading a time step of a LIF series reads the bytes of that time step", "statement": "getOffset(t) throws for t out of range; frames of different time steps of a well-formed series do not overlap, lie within the series memory block; 2D slices of a time step tile the 3D buffer.", "quantifier": "all series headers, time steps and slices", "why_tests_cant": "Offset arithmetic for all headers.", "anchors": ["multiscale/src/lifFile.cpp: LifSerie::getOffset, fill3DBuffer, fill2DBuffer, LifSerie::LifSerie"]}
{"id": "C50", "title": "Radial distribution histogram counts each pair in the right bin", "statement": "The RDF binner puts each pair at distance d < cutoff in bin floor(d*n/cutoff), always in range, and counts every ordered pair once.", "quantifier": "all particle sets, cutoffs and bin numbers", "why_tests_cant": "In-range for all d<cutoff.", "anchors": ["lib/particles.hpp: Particles::Binner, RdfBinner", "lib/particles.cpp: Particles::getRdf"]}
{"id": "C51", "title": "Selection away from the borders without index", "statement": "selectInside_noindex(margin, noZ) returns, in increasing order, exactly the particles at least margin inside the bounding box of the positions on each axis (the last one being ignored with noZ).", "quantifier": "all non empty particle sets, margins, noZ", "why_tests_cant": "Sign of the coordinates, order and number of particles are unbounded.", "anchors": ["lib/particles.cpp: Particles::selectInside_noindex"]}
{"id": "C52", "title": "Periodic neighbour search is exact", "statement": "In periodic boundary conditions, with all particles in the box, getEuclidianNeighbours and makeNgbList find exactly the particles having an image nearer than the range, the list is symmetric, and getNearestNeighbour returns a particle with a nearest image.", "quantifier": "all particle sets in a box, centres in the box and ranges", "why_tests_cant": "Combination of the 27 images with an R* tree query and the wrapped difference, for all positions and ranges.", "anchors": ["lib/particles.cpp: getEuclidianNeighbours, makeNgbList, getNearestNeighbour", "lib/periodic.cpp: selectEnclosed, getDiff"]}
{"id": "C53", "title": "Clusters are split at the jumps", "statement": "split_clusters cuts a cluster exactly at the local maxima of the lateral displacement of its centers, where that displacement exceeds 1.", "quantifier": "all cluster lists", "why_tests_cant": "Depends on the whole shape of an unbounded cluster; a test with one jump at a chosen place passes or fails by accident.", "anchors": ["multiscale/src/reconstructor.cpp: Reconstructor::split_clusters"]}
{"id": "C54", "title": "A blob gives the center at its place", "statement": "get_blobs ignores clusters of one center and blobs in the margins, never reads outside of a cluster, and returns for each other blob the center interpolated at its position in the cluster, whatever the 1D finder returns.", "quantifier": "all cluster lists and all outputs of the 1D finder", "why_tests_cant": "Depends on positions at the very ends of clusters of any length.", "anchors": ["multiscale/src/reconstructor.cpp: Reconstructor::get_blobs"]}
{"id": "C55", "title": "Third-order invariants", "statement": "For every even l<=10 the third order invariant W_l given by getInvarients is real, its modulus is at most 1 once normalised, and getWl, which sums over ordered triples only, gives the same value.", "quantifier": "all coefficient sets, all even l<=10", "why_tests_cant": "An inequality and a symmetry argument over all coefficient values; the shortened loop is right only if each triple has the multiplicity it is given.", "anchors": ["lib/boo_data.cpp: BooData::getInvarients, getWl"]}
{"id": "C56", "title": "The table contains the Wigner 3j symbols", "statement": "For every even l<=10 and all m1+m2+m3=0 with |mi|<=l, the entry found by getW3j is the Wigner 3j symbol (l l l; m1 m2 m3), hence the symbols of each l satisfy the normalisation sum of squares = 1.", "quantifier": "all even l<=10, all m1, m2", "why_tests_cant": "91 hand-written irrational constants used with the symmetries of the lookup.", "anchors": ["lib/boo_data.cpp: BooData::w3j, getW3j"]}
{"id": "C57", "title": "Bond order of a set of particles", "statement": "For a symmetric neighbour list, getBOO, getBOOs, getBOOs of a selection and getBOOs_SurfBOOs give each particle the same tensor: the mean of the harmonics of its bonds, null without neighbours. getSurfBOOs is the mean over its bonds and the bonds between its neighbours, each once. getCgBOO is the mean over the particle and its neighbours and leaves a uniform field unchanged.", "quantifier": "all neighbour lists, all harmonics, all previous contents of the arrays", "why_tests_cant": "Accumulation bond by bond over an arbitrary graph; previous contents of the output array matter.", "anchors": ["lib/particles.cpp: getBOO, getCgBOO, getBOOs, getCgBOOs, getSurfBOOs, getBOOs_SurfBOOs"]}
{"id": "C58", "title": "Text files of bond order coefficients", "statement": "What exportQ6m, or the text output of the coefficients, writes is read back by load_q6m, load_qlm and the constructor from a string, up to the rounding of the numbers, without access out of range, whatever the number of particles.", "quantifier": "all coefficient sets, all numbers of particles", "why_tests_cant": "End of file handling and fixed size buffers against any number of particles.", "anchors": ["lib/particles.cpp: exportQ6m, load_q6m, load_qlm", "lib/boo_data.cpp: operator<<, operator>>, BooData(const std::string&)"]}
{"id": "C59", "title": "Removing the values outside a selection", "statement": "removeOutside resets the value of exactly the particles that are not in the selection and leaves the others as they are.", "quantifier": "all selections in increasing order, all arrays", "why_tests_cant": "Two nested loops sharing a counter, over every selection.", "anchors": ["lib/particles.hpp: Particles::removeOutside"]}
{"id": "C60", "title": "Number density", "statement": "getNumberDensity is the number of particles divided by the volume of the smallest box that contains them, with or without an index.", "quantifier": "all particle sets", "why_tests_cant": "Needs all configurations, including insertion histories of the index.", "anchors": ["lib/particles.cpp: Particles::getNumberDensity"]}
{"id": "C61", "title": "Velocities on a centered interval", "statement": "velocities(t,h) gives for each particle of frame t the displacement of its trajectory over the part of [t-h,t+h] where the trajectory exists, divided by the duration of that part (null for a trajectory with a single position); getSD(t,h) gives the squared displacement over that interval.", "quantifier": "all trajectory sets, times and half intervals", "why_tests_cant": "Clipping at both ends of trajectories, wrapping subtraction of times, renumbering of positions between frames.", "anchors": ["lib/dynamicParticles.cpp: DynamicParticles::velocities, DynamicParticles::getSD"]}
{"id": "C62", "title": "Non Gaussian parameter", "statement": "get_MSD_NGP gives at each lag the mean squared displacement in squared diameters (the same as getMSD) and the ratio of the mean quartic displacement to three times the square of the mean squared displacement; getNonGaussian gives the same ratio.", "quantifier": "all trajectory sets, selections and time windows", "why_tests_cant": "Needs all lags and all windows.", "anchors": ["lib/dynamicParticles.cpp: get_MSD_NGP, getNonGaussian"]}
{"id": "C63", "title": "Scattering functions", "statement": "getSelfISF at lag d is the mean over the selected trajectories and the start times of cos(q.displacement), hence in [-1,1] and 1 at lag 0; getISF is the normalised autocorrelation of the density wave, hence 1 for particles that do not move.", "quantifier": "all trajectory sets, selections, wave vectors and time windows", "why_tests_cant": "Real valued functions over all windows; table bounds.", "anchors": ["lib/dynamicParticles.cpp: getSelfISF, getISF"]}
{"id": "C64", "title": "Linking positions into trajectories", "statement": "link never fails when there is at least one frame, moves no particle, puts each particle of each frame in exactly one trajectory, links only particles nearer than one diameter, and for each pair of particles of consecutive frames nearer than one diameter, at least one of the two is linked to something at least as near.", "quantifier": "all series of frames", "why_tests_cant": "Needs all configurations and all histories.", "anchors": ["lib/dynamicParticles.cpp: DynamicParticles::link"]}
{"id": "C65", "title": "Cages do not depend on the origin", "statement": "Translating all the positions of a trajectory by the same vector does not change how getCages cuts it.", "quantifier": "all trajectories and translations", "why_tests_cant": "Real valued averages; needs a pair of executions.", "anchors": ["lib/dynamicParticles.cpp: splitByCageJump"]}
{"id": "C66", "title": "Time averages of trajectory values", "statement": "makeTimeAverage and makeSlidingTimeAverage give, for each window of n frames, a value to exactly the selected trajectories that exist during the whole window, and this value is the mean of the values of the positions of the trajectory; a missing value throws.", "quantifier": "all trajectory sets, selections, windows and values", "why_tests_cant": "Windows at the ends, renumbering between frames, missing values.", "anchors": ["lib/dynamicParticles.cpp: makeTimeAverage, makeSlidingTimeAverage"]}
{"id": "C67", "title": "Bounds of trajectories and of frames", "statement": "boundsTrajectory is the smallest box containing all the positions of a trajectory, getMaxBox the smallest box containing the boxes of all frames, getMaxSimultaneousParticles the size of the most populated frame.", "quantifier": "all trajectory sets", "why_tests_cant": "All positions; extremal property.", "anchors": ["lib/dynamicParticles.cpp: boundsTrajectory, getMaxBox, getMaxSimultaneousParticles"]}
{"id": "C68", "title": "Removing the drift given in a file", "statement": "removeDrift(file,offset) translates frames only; between frames t-1 and t the translation changes by the displacement of line offset+t of the file, for all frames; there is no translation along the third axis.", "quantifier": "all files with a line per frame, all offsets", "why_tests_cant": "All numbers of frames and offsets.", "anchors": ["lib/dynamicParticles.cpp: removeDrift(displFile,t_offset)"]}
{"id": "C69", "title": "Subpixel and subscale resolution stay near the detected pixel and are exact on parabolas", "statement": "The position of a detected center is within one pixel of the center of its pixel and its scale within half a layer of its layer; both are numbers; when the intensity (resp. the difference of the responses) is a parabola, its extremum is found exactly.", "quantifier": "all images, all detected pixels", "why_tests_cant": "Real valued; all images.", "anchors": ["multiscale/src/octavefinder.cpp: spatial_subpix, scale_subpix, CircularZ4D::shift"]}
{"id": "C70", "title": "The Gaussian response between two layers is a convolution", "statement": "gaussianResponse refuses negative scales, reads the layer at an exact scale, and otherwise is the convolution of the layer below with the square of the kernel, pixels out of the image counting as zero.", "quantifier": "all images, pixels, scales and kernels", "why_tests_cant": "Clipping at borders for all sizes, square or not.", "anchors": ["multiscale/src/octavefinder.cpp: OctaveFinder::gaussianResponse"]}
{"id": "C71", "title": "The blur of a volume along Z reaches every pixel once", "statement": "inplace_blur3D blurs each column of the volume along Z exactly once, whatever the number of threads and their schedule.", "quantifier": "all sizes and numbers of threads", "why_tests_cant": "All numbers of threads and interleavings.", "anchors": ["multiscale/src/octavefinder.cpp: inplace_blur3D"]}
{"id": "C72", "title": "Each octave has its own range of sizes", "statement": "The radii found in octave o lie between u*2^(o-1) and u*2^o with the same u for all octaves, also after the correction at the seam between octaves: the ranges touch and do not overlap.", "quantifier": "all images, numbers of layers and octaves", "why_tests_cant": "Real exponents; all responses.", "anchors": ["multiscale/src/octavefinder.cpp: scale_subpix", "multiscale/src/octavefinder.hpp: scale", "multiscale/src/multiscalefinder.hpp: subpix, seam, previous_octave_coords"]}
{"id": "C73", "title": "A spot is found at the same place in octaves 0 and 1", "statement": "A spot that is symmetric around a pixel of the input is found at the center of this pixel, in octave 0 (upscaled) as well as in octave 1.", "quantifier": "all images with a symmetric spot", "why_tests_cant": "Needs a relation between two octaves for all images.", "anchors": ["multiscale/src/multiscalefinder.cpp: MultiscaleFinder2D::upscale", "multiscale/src/multiscalefinder.hpp: subpix", "multiscale/src/octavefinder.cpp: spatial_subpix"]}
{"id": "C74", "title": "Reading a LIF file finds every memory block", "statement": "The series of a LIF file are its memory blocks with data, in order, each with its own header and the place of its data; files that are cut or have too many blocks are refused by an exception.", "quantifier": "all files", "why_tests_cant": "All byte sequences and block structures.", "anchors": ["multiscale/src/lifFile.cpp: LifReader::LifReader, readInt, readUnsignedInt, readUnsignedLongLong"]}
{"id": "C75", "title": "Time stamps of a LIF series", "statement": "The time stamps of a series are those written in its header, in milliseconds whatever the version of the file, and only those declared are stored.", "quantifier": "all lists of time stamps", "why_tests_cant": "All headers, including inconsistent ones.", "anchors": ["multiscale/src/lifFile.cpp: LifSerieHeader::parseTimeStampList"]}
{"id": "C76", "title": "Tracking a LIF series tracks each slice of each time step", "statement": "fill_time_step gives each slice of the current time step to the finder, in order, as an image whose rows are the lines of the slice; get_centers goes to the next time step; out_of_range is thrown after the last.", "quantifier": "all series, all time steps", "why_tests_cant": "All sizes, channels and numbers of time steps.", "anchors": ["multiscale/src/locatorfromlif.cpp: LocatorFromLif::LocatorFromLif, fill_next_slice, fill_time_step, get_centers"]}
{"id": "C77", "title": "Convolution along an axis treats every line once", "statement": "convolve(im, axis, kernel) replaces each line of the image along the axis by its convolution, whatever the number of dimensions and the axis, each line once and from its values before the call; an axis that does not exist is refused by invalid_argument.", "quantifier": "all images, all axes", "why_tests_cant": "All sizes, numbers of dimensions and axes.", "anchors": ["multiscale/src/deconvolution.cpp: convolve, Convolver::fill, Convolver::operator()"]}
{"id": "C78", "title": "A Convolver multiplies the Fourier coefficients by the kernel", "statement": "For a line of any length n and a kernel of n/2+1 values, the Fourier coefficients of the result are those of the line times the kernel; a kernel of ones changes nothing; applying two kernels is applying their product.", "quantifier": "all lines, all kernels", "why_tests_cant": "All real lines and kernels, odd and even lengths.", "anchors": ["multiscale/src/deconvolution.cpp: Convolver::operator()", "multiscale/src/octavefinder.cpp: OctaveFinder3D::load_deconv_kernel"]}
{"id": "C79", "title": "Spectra and the deconvolution kernel", "statement": "The spectrum along an axis is never negative and is zero where all the lines agree; the deconvolution kernel reads the spectra in range and, once applied, the spectrum along the bad axis is that along the good axis at the same physical frequency; the Hanning window is between 0 and 1, symmetric and zero at both ends.", "quantifier": "all images, axes and ratios of sizes", "why_tests_cant": "All real images, axes and ratios.", "anchors": ["multiscale/src/deconvolution.cpp: get_spectrum_1d, get_deconv_kernel, Convolver::set_hanning"]}
{"id": "C80", "title": "drawsphere draws exactly a sphere", "statement": "drawsphere gives the value to all the pixels strictly nearer to the center than the radius, leaves all the others as they were and writes nothing outside of the volume, wherever the center is.", "quantifier": "all volumes, centers and radii", "why_tests_cant": "All real centers and radii, centers outside of the volume included.", "anchors": ["multiscale/src/octavefinder.hpp: drawsphere"]}
{"id": "C81", "title": "volume_shrink takes the mean of each block", "statement": "Each pixel of the small volume is the mean of its block of the large volume, rounded to the nearest value of the type of the pixels.", "quantifier": "all volumes, all factors", "why_tests_cant": "All pixel values and types.", "anchors": ["multiscale/src/octavefinder.hpp: volume_shrink"]}
{"id": "C82", "title": "rotate_by_Pi turns the bonds by half a turn", "statement": "rotate_by_Pi(axis) of the tensor of any set of bonds is the tensor of the same bonds after a half turn around the axis. It is linear, is its own inverse, does not depend on the length nor the orientation of the axis, and preserves products, norms and order parameters. A null axis counts as the axis z.", "quantifier": "all axes, all sets of bonds, all tensors", "why_tests_cant": "All real axes and bonds, all the even orders at once.", "anchors": ["lib/boo_data.cpp: BooData::rotate_by_Pi, WignerD, BooData::BooData(Coord), cart2sph"]}
{"id": "C83", "title": "The tensor of a bond and the meaning of the products", "statement": "The tensor of a bond depends neither on its length nor on its orientation. The product of the tensors of two bonds is (2l+1)/(4 pi) P_l of the cosine of their angle, their normed product is P_l. Q_l of one bond is 1 and of any average of bonds is between 0 and 1. isnull tells exactly the particles without bond. A bond of null length counts as a bond along z.", "quantifier": "all bonds, all sets of bonds, even l up to 10", "why_tests_cant": "The addition theorem of spherical harmonics for all pairs of directions.", "anchors": ["lib/boo_data.cpp: BooData::BooData(Coord), innerProduct, normedProduct, getQl", "lib/boo_data.hpp: isnull"]}
{"id": "C84", "title": "reflect gives the tensor of the mirror image", "statement": "reflect(normal) of the tensor of a set of bonds is the tensor of the mirror images of the bonds by the plane of this normal (documented as equal to rotate_by_Pi).", "quantifier": "all normals, all sets of bonds", "why_tests_cant": "All real normals and bonds.", "anchors": ["lib/boo_data.cpp: BooData::reflect"]}
{"id": "C85", "title": "getFlipBOOs averages with the half turned neighbours", "statement": "Each tensor is replaced by the mean of itself and of the tensors of the bonded particles after a half turn around the bond, each neighbour once, bonds with a null tensor excluded. A particle without usable bond keeps its tensor, and so does a particle whose neighbours are its half turned images.", "quantifier": "all positions, tensors and bond sets", "why_tests_cant": "All sets of bonds and tensors.", "anchors": ["lib/particles.cpp: Particles::getFlipBOOs"]}
{"id": "C86", "title": "get1551pairs gives the linked pairs that share a ring of five", "statement": "get1551pairs() returns each pair of linked particles whose common neighbours are exactly five particles forming one closed ring (each linked to the previous and to the next one, and to no other of the five), each pair once, and no other pair. is_ring tells that every particle of the list has exactly two neighbours in the list; for six or more particles this may be several separated rings.", "quantifier": "all neighbour lists (sorted, symmetric, without self)", "why_tests_cant": "All the graphs of neighbours, of any size.", "anchors": ["lib/particles.cpp: Particles::is_ring, Particles::get1551pairs"]}
{"id": "C87", "title": "get2331pairs gives the unlinked pairs that share a triangle", "statement": "get2331pairs() returns each pair of particles that are not linked and whose common neighbours are exactly three particles linked to each other, each pair once, and no other pair. No pair is both 1551 and 2331.", "quantifier": "all neighbour lists (sorted, symmetric, without self)", "why_tests_cant": "All the graphs of neighbours, of any size.", "anchors": ["lib/particles.cpp: Particles::get2331pairs"]}
{"id": "C88", "title": "getSecondShell gives the neighbours and their neighbours", "statement": "getSecondShell() returns each pair of particles that are linked or that have a common neighbour, each pair once.", "quantifier": "all neighbour lists (sorted, symmetric, without self)", "why_tests_cant": "All the graphs of neighbours, of any size.", "anchors": ["lib/particles.cpp: Particles::getSecondShell"]}
{"id": "C89", "title": "getSP5c gives the pairs with five common neighbours", "statement": "getSP5c appends, once for each linked pair that has exactly five common neighbours, the two particles followed by the sorted common neighbours; these are the 1551 pairs with their ring.", "quantifier": "all neighbour lists (sorted, symmetric, without self)", "why_tests_cant": "All the graphs of neighbours, of any size.", "anchors": ["lib/particles.cpp: Particles::getSP5c"]}
{"id": "C90", "title": "DynamicClusters finds at each time the connected parts of the population", "statement": "After construction (or assign on a new object) from dynamic particles and a population of trajectories, the members at each time are sets of at least two trajectories, pairwise disjoint, that exist at this time and belong to the population; two distinct trajectories are in the same set exactly when a chain of neighbours inside the population joins them at this time. Without any time step the construction is undefined.", "quantifier": "all consistent dynamic particles, all populations", "why_tests_cant": "Any number of trajectories, time steps and bonds.", "anchors": ["lib/dynamicClusters.cpp: DynamicClusters::DynamicClusters, DynamicClusters::assign"]}
{"id": "C91", "title": "Clusters are followed from one time to the next", "statement": "Each cluster of each time belongs to exactly one trajectory of clusters, that has at most one cluster per time and no hole. Two successive clusters of a trajectory have more than a third of their union in common; a cluster that keeps its members keeps its trajectory; a cluster is followed by the one that has the most members in common.", "quantifier": "all consistent dynamic particles, all populations", "why_tests_cant": "Any number of trajectories, time steps and bonds.", "anchors": ["lib/dynamicClusters.cpp: DynamicClusters::assign"]}
{"id": "C92", "title": "assign replaces the clusters of the object", "statement": "DynamicClusters::assign called on an object gives the same members as the constructor with the same arguments, whatever the object contained.", "quantifier": "all consistent dynamic particles, all populations, all former contents", "why_tests_cant": "The former content can be anything.", "anchors": ["lib/dynamicClusters.cpp: DynamicClusters::assign"]}
{"id": "C93", "title": "bounds is the smallest box around a cluster", "statement": "bounds(cluster, time) is the smallest box that contains all the members with their radius; it throws invalid_argument if a member does not exist at this time, and is undefined on an empty cluster. getLargestDelta(time) gives in each dimension the largest extent of the clusters of this time, 0 if there is none. Both are defined for all clusters found by assign.", "quantifier": "all dynamic particles, all clusters", "why_tests_cant": "All positions and all clusters.", "anchors": ["lib/dynamicClusters.cpp: DynamicClusters::bounds, DynamicClusters::getLargestDelta"]}
{"id": "C94", "title": "The files of save contain the clusters", "statement": "DynamicClusters::save writes one file per time; reading the number of clusters, then for each one a label, a size and as many numbers, gives back for each cluster in order the number of its trajectory and the positions at this time of its members in order.", "quantifier": "all consistent dynamic particles with less than 2^64 positions, all populations", "why_tests_cant": "Any number of trajectories, time steps and bonds.", "anchors": ["lib/dynamicClusters.cpp: DynamicClusters::save"]}
{"id": "C95", "title": "The image of the tracker holds the pixels that were given", "statement": "fillImage_charToUchar puts the pixels of the stream, read as unsigned characters, at their place in the padded memory, leaves the stream after the image and keeps the mean intensity; fillSlice for each slice and fillImage do the same for pixels of any type; copyImage gives the same pixels back, padded or not, and unpad moves them without losing one.", "quantifier": "all dimensions, all images", "why_tests_cant": "Any image size and any pixel values.", "anchors": ["graphic/tracker.hpp: Tracker::fillImage, fillImage_charToUchar, fillSlice, copyImage", "graphic/tracker.cpp: Tracker::unpad", "graphic/serieTracker.cpp: SerieTracker::setTimeStep"]}
{"id": "C96", "title": "The band pass filter keeps the wavelengths between the two radii", "statement": "After makeBandPassMask(radiiMin, radiiMax) a Fourier mode is kept exactly when it is inside the ellipsoid of half axes dims/(2 radiiMin) and outside the one of half axes dims/(2 radiiMax), with the negative frequencies treated as the positive ones; the mean is always removed; radii in the wrong order throw invalid_argument. makeLowPassMask is the same without the second condition.", "quantifier": "all dimensions, all radii", "why_tests_cant": "Any image size and any pixel values.", "anchors": ["graphic/tracker.cpp: Tracker::makeBandPassMask, Tracker::makeLowPassMask"]}
{"id": "C97", "title": "The pixel centers are the local maxima of the filtered image", "statement": "findPixelCenters marks only pixels that are at least 6 pixels from the borders (in the dimensions of 13 pixels or more), at least as bright as the threshold and at least as bright as the neighbours on both sides in each dimension; all the strict local maxima are marked; no two consecutive pixels are marked; each bright maximum (plateau) has exactly one mark.", "quantifier": "all images, all thresholds", "why_tests_cant": "Any image size and any pixel values.", "anchors": ["graphic/tracker.cpp: Tracker::findPixelCenters"]}
{"id": "C98", "title": "The subpixel position is the top of the image", "statement": "centroid gives the pixel moved in each dimension by the Newton step of the five pixels around it if this pixel is the brightest of the neighbourhood, the position (-1,-1,-1) otherwise. It is exact if the image is a parabola; the position found is near the pixel and is a number; no pixel outside the image is read.", "quantifier": "all images, all marked pixels", "why_tests_cant": "Any image size and any pixel values.", "anchors": ["graphic/tracker.cpp: Tracker::centroid"]}
{"id": "C99", "title": "The automatic threshold cuts the histogram of intensities at the valley before its main peak", "statement": "With autoThreshold getSubPixel keeps exactly the centers brighter than the beginning of the least populated class of the histogram of 100 classes between the weakest class and the main peak; it always returns.", "quantifier": "all sorted sets of intensities", "why_tests_cant": "Any number of centers and any intensities.", "anchors": ["graphic/tracker.cpp: Tracker::getSubPixel"]}
{"id": "C100", "title": "getSubPixel gives each marked center once, brightest first, and getIntensities gives their brightness", "statement": "getSubPixel returns exactly the centroids of the marked pixels that are the brightest of their neighbourhood, once each, by decreasing intensity, in the order x,y,z if the image is in Fortran order; none of the marked pixels reads outside the image if no dimension is between 5 and 12; getIntensities gives the intensity of the pixel nearest to each center.", "quantifier": "all images, all sets of marked pixels", "why_tests_cant": "Any image size and any pixel values.", "anchors": ["graphic/tracker.cpp: Tracker::getSubPixel, Tracker::getIntensities"]}
{"id": "C101", "title": "The neighbourhood of a center holds all the pixels near it", "statement": "RadiiTracker::getNeighbourhood copies to the neighbourhood every pixel of the image nearer to the center than rmax in each dimension, at the same place relative to the returned center, and leaves 0 elsewhere; it stays inside both arrays.", "quantifier": "all images, all centers inside, all rmax", "why_tests_cant": "Any center, any size of image.", "anchors": ["graphic/radiiTracker.cpp: RadiiTracker::getNeighbourhood, RadiiTracker::getRadii"]}
{"id": "C102", "title": "The radius of a particle is where the mean intensity around its center decreases most", "statement": "RadiiTracker::getRadius averages the intensity of the pixels of the image inside each radius around the center (z being scaled), and returns the radius between rmin and rmax-rmin where the smoothed mean decreases most.", "quantifier": "all images, all centers, all rmin, rmax and precisions", "why_tests_cant": "Any image and any parameters.", "anchors": ["graphic/radiiTracker.cpp: RadiiTracker::getRadius, RadiiTracker::resize, RadiiTracker::getRadii"]}
{"id": "C103", "title": "A series of images is read from the files that the user named", "statement": "A SerieTracker built on a name with digits after _z and after _t loads, for slice z and time step t, the file with the same name except that the digits are those of z and t, filled with zeros to the same length; the name given is one of these names and two images never have the same name. Without _t (or _z) there is only one time step (or slice) and invalid_argument is thrown if more are asked.", "quantifier": "all names, all slices and time steps", "why_tests_cant": "Any name with any number of digits.", "anchors": ["graphic/serieTracker.cpp: SerieTracker::SerieTracker, SerieTracker::setTimeStep"]}
{"id": "C104", "title": "A tracker iterator gives the centers of its current time step", "statement": "Dereferencing a LifTracker gives the centers found in the image of the current time step and channel, whatever the sequence of increments, jumps and dereferences before; the centers are computed once per visit; from the end of the series on they are empty; a jump outside the series throws out_of_range. The same holds for SerieTracker.", "quantifier": "all series, all sequences of operations", "why_tests_cant": "Sequences of any length on any file.", "anchors": ["graphic/lifTracker.cpp: LifTracker::LifTracker, setTimeStep, operator++, getTrackerDims", "graphic/tracker.cpp: TrackerIterator::operator*", "graphic/serieTracker.hpp: SerieTracker::reachedEnd"]}
{"id": "C105", "title": "sp5c lists the bonds which have a pentagon around them", "statement": "The program sp5c, given a file of bonds between different particles, ends; for every bond such that among the common neighbours of its two ends five form a ring, and only for these, it writes the two ends and the five particles of such a ring; the count it writes for a particle is the number of these bonds it is an end of.", "quantifier": "all sets of bonds", "why_tests_cant": "Any network of bonds.", "anchors": ["mains/sp5c.cpp"]}
{"id": "C106", "title": "The bond length is the first minimum of g(r)", "statement": "linkboo, all_bonds and bonds find the bond length as the position of the first minimum of the distribution after its first peak; the length is the same whether the distribution was just computed or was reloaded from the file written by a previous run.", "quantifier": "all distributions", "why_tests_cant": "Any distribution.", "anchors": ["mains/linkboo.cpp", "mains/all_bonds.cpp", "mains/bonds.cpp"]}
{"id": "C107", "title": "The total g(r) is the mean of the g(r) of the frames", "statement": "linkboo, all_bonds and totalRdf write in each bin of the total distribution the mean over the frames of this bin.", "quantifier": "all numbers of frames, all distributions", "why_tests_cant": "Any number of frames.", "anchors": ["mains/linkboo.cpp", "mains/all_bonds.cpp", "mains/totalRdf.cpp"]}
{"id": "C108", "title": "The coarse grained Voronoi volume is an average over bulk cells", "statement": "cgVoro gives to each particle the mean of the volumes of the cells not at a wall among its own and its neighbours; for a particle without any it averages over the neighbours that have got a volume. The program ends, and all volumes are between the smallest and the largest volume of the cells not at walls.", "quantifier": "all sets of cells", "why_tests_cant": "Any tesselation.", "anchors": ["mains/cgVoro.cpp: VoroContainer::get_cgVolumes"]}
{"id": "C109", "title": "cgVoro writes the particles at the walls and the bonds", "statement": "The file of outside particles holds, in increasing order, those whose cell touches a wall, the second outside file these and their neighbours. Each bond between two particles is printed once, and only bonds between particles are.", "quantifier": "all sets of cells", "why_tests_cant": "Any tesselation.", "anchors": ["mains/cgVoro.cpp: VoroContainer::getOutsides, VoroContainer::print_bonds"]}
{"id": "C110", "title": "dhlngb counts the neighbours lost since the initial time", "statement": "Given a trajectory index and a file of bonds for each frame, dhlngb writes for each position of the following frames the number of trajectories that were neighbours at the initial time and are no longer, and -1 for the positions whose trajectory does not exist at the initial time; an initial time not before the last frame is refused.", "quantifier": "all trajectory indices, all bonds, all initial times", "why_tests_cant": "Any film.", "anchors": ["mains/dhlngb.cpp"]}
{"id": "C111", "title": "lostngb and traj2vtk count the neighbours lost during an interval", "statement": "For each position at t0 of a trajectory which still exists at t0+tau, lostngb writes the number of neighbours at t0 that are no longer neighbours at t0+tau, -1 if the trajectory ends before; traj2vtk does it for the interval centred on each time.", "quantifier": "all trajectory indices, all bonds, all intervals", "why_tests_cant": "Any film, any interval.", "anchors": ["mains/lostngb.cpp", "mains/traj2vtk.cpp: export_lostNgb"]}
{"id": "C112", "title": "The relaxation time is where the correlation falls under 1/e", "statement": "cage2vtk and traj2vtk take as relaxation time the last time step at which the self intermediate scattering function is above 1/e.", "quantifier": "all correlation functions", "why_tests_cant": "Any function, any length.", "anchors": ["mains/cage2vtk.cpp: loadTau", "mains/traj2vtk.cpp: loadTau"]}
{"id": "C113", "title": "The frequency of the jumps counts the passages from a cage to another", "statement": "cage2vtk writes for each particle at each time the number of times it leaves a cage for another in an interval tau around this time, divided by the duration of this interval.", "quantifier": "all trajectories cut in any cages, all intervals", "why_tests_cant": "Any film, any cages.", "anchors": ["mains/cage2vtk.cpp: export_jump"]}
{"id": "C114", "title": "The volume fraction is the volume of the sphere over that of the cell", "statement": "cage2vtk and traj2vtk write for each particle the volume of the sphere of the given radius divided by the volume of its Voronoi cell, 0 if this volume is not known.", "quantifier": "all radii, all volumes", "why_tests_cant": "Any radius, any tesselation.", "anchors": ["mains/cage2vtk.cpp: export_phi", "mains/traj2vtk.cpp: export_phi"]}
{"id": "C115", "title": "The angular distribution of a particle is the distribution of the angles between its neighbours", "statement": "getAngularDistribution gives for a particle, for each degree from 0 to 179, the fraction of the pairs of its neighbours whose directions make this angle; the fractions add up to 1.", "quantifier": "all particles, all lists of neighbours", "why_tests_cant": "Any positions, any number of neighbours.", "anchors": ["lib/particles.cpp: getAngle, getAngularDistribution"]}
{"id": "C116", "title": "The spatial correlation of bond order is the mean scalar product of the tensors of pairs at a distance", "statement": "GlBinner gives for each distance the mean over pairs of particles with non null bond order tensors of the normalised scalar product of degree l, so that it is Ql squared when all the particles have the same tensor, and 0 where there is no pair.", "quantifier": "all positions, all tensors, all degrees, all numbers of bins", "why_tests_cant": "Any configuration and any degree.", "anchors": ["lib/particles.hpp: GlBinner", "lib/particles.cpp: GlBinner::normalize"]}
{"id": "C117", "title": "A VTK export reads back as the particles, the bonds and the fields", "statement": "A reader of the VTK legacy format finds in the file written by exportToVTK the title, the positions in order, each bond as a line between two points, and every scalar and vector field with its name and one value per particle, up to the precision of the written numbers.", "quantifier": "all positions, bonds, fields and names", "why_tests_cant": "Any number of particles and fields, any text.", "anchors": ["lib/particles.cpp: toVTKstream, exportToVTK", "lib/fields.cpp"]}
{"id": "C118", "title": "A spot found in two consecutive octaves is kept once", "statement": "After hi.seam_binary(lo), where hi is the octave of larger images, a spot found both in the last layer of hi and in the first layer of lo at the same place is kept only where it is the deepest; the other centers are kept in order and the binary images still show the centers.", "quantifier": "all octaves in one, two and three dimensions, all sets of centers", "why_tests_cant": "Any images, any number of centers, any ratio of sizes.", "anchors": ["multiscale/src/octavefinder.cpp: seam_binary"]}
{"id": "C119", "title": "The cache gives the Gaussian kernel that is asked for", "statement": "Whatever the radii asked for before, get_kernel gives the kernel of the radius asked for within 1%.", "quantifier": "all sequences of radii", "why_tests_cant": "Any history of calls.", "anchors": ["multiscale/src/octavefinder.cpp: get_kernel"]}
{"id": "C120", "title": "The layers of an octave are blurred geometrically and radii are those of the spots that answer", "statement": "The successive blurs bring layer i to the preblur radius times 2^(i/n), exactly twice the first for the layer that makes the next octave; the radius given to a center is where the difference of Gaussians of its layer changes sign, in one, two and three dimensions; sizes of layers are these radii rounded.", "quantifier": "all preblur radii, all numbers of layers, all layers", "why_tests_cant": "Any real radius and number of layers.", "anchors": ["multiscale/src/octavefinder.cpp: fill_iterative_radii, get_iterative_radius", "multiscale/src/octavefinder.hpp: scale"]}
{"id": "C121", "title": "The images of the 3D finder lie in its memory and do not overlap", "statement": "All the Gaussian layers and the layers of differences of a 3D finder lie in the memory it allocates, without overlap.", "quantifier": "all sizes of volume, all numbers of layers", "why_tests_cant": "Any size.", "anchors": ["multiscale/src/octavefinder.cpp: OctaveFinder3D"]}
{"id": "C122", "title": "An image of a wrong size is refused", "statement": "MultiscaleFinder::fill accepts the images of the size given to the constructor and throws invalid_argument for any other size, without touching other memory.", "quantifier": "all sizes of finder and image, two and three dimensions", "why_tests_cant": "Any size.", "anchors": ["multiscale/src/multiscalefinder.cpp: fill, upscale", "multiscale/src/octavefinder.cpp: fill, preblur_and_fill"]}
{"id": "C123", "title": "The preblur of a volume is isotropic", "statement": "The blur before the 3D detection has the same radius in all directions once the ratio of the sizes of the voxels is set; the option to halve it along Z halves it; deconvolution is only on with a kernel of the right size.", "quantifier": "all settings in any order", "why_tests_cant": "Any sequence of settings.", "anchors": ["multiscale/src/octavefinder.cpp: preblur, set_deconv, load_deconv_kernel", "multiscale/src/multiscalefinder.cpp: set_halfZpreblur"]}
{"id": "C124", "title": "The self intermediate scattering function averages over starts, trajectories and axes", "statement": "getSelfISF(t0,t1,t2) gives at each lag the mean of cos(q.displacement) over the starts from t0 to t2-1, the trajectories that span the interval from each start, and the three axes with a wave length of a diameter; it starts at 1 and stays between -1 and 1; starts without trajectory count for nothing.", "quantifier": "all films, all windows t0, t1, t2, all wave vectors", "why_tests_cant": "Any film, any window.", "anchors": ["lib/dynamicParticles.cpp: getSelfISF(q,t0,t1,t2), getSelfISF(t0,t1,t2)"]}
{"id": "C125", "title": "makeDynamics and exportDynamics give the dynamics of sets of trajectories", "statement": "For any sets of trajectories that span the film, makeDynamics gives for each set the mean square displacement, the non Gaussian parameter and the self intermediate scattering function along each axis and averaged, one value per lag.", "quantifier": "all films, all sets of trajectories", "why_tests_cant": "Any film and sets.", "anchors": ["lib/dynamicParticles.cpp: makeDynamics, exportDynamics"]}
{"id": "C126", "title": "A film that linker saved can be opened again", "statement": "The trajectory file written by linker and opened by DynamicParticles(filename) gives back the same positions, the same trajectories and their inverse, and the radius and time step as they are printed, wherever the position files are.", "quantifier": "all films, all file names and tokens, all printing of numbers that reads back", "why_tests_cant": "The names, texts and numbers are unbounded.", "anchors": ["lib/dynamicParticles.cpp: save, DynamicParticles(const string &)", "mains/linker.cpp", "lib/traj.cpp: operator<<, operator>>"]}
{"id": "C127", "title": "Spatio-temporal queries give the objects that exist in the interval and are in the box", "statement": "selectSpanning, selectEnclosed, selectSpanningInside on a spatio-temporal index give exactly the objects of the film that exist during the interval and lie in the region; the slice of such an index at a time behaves as a spatial index of the positions at that time.", "quantifier": "all films, intervals, boxes and margins", "why_tests_cant": "Any set of objects.", "anchors": ["lib/index.hpp: SpatioTemporalIndex, SpatioTemporalIndex_slice", "lib/index.cpp", "lib/dynamicParticles.cpp: selectSpanning_Enclosed, selectEnclosed, selectSpanningInside"]}
{"id": "C128", "title": "Bond order in a film is that of the selected trajectories, coarse-grained over the neighbours", "statement": "makeBoo gives the bond order of the place at time t of each trajectory of the selection that exists at that time, and nothing else; makeSBoo gives to each of them the mean over the particles nearer than 2.6 radii, itself with them.", "quantifier": "all films, times, selections", "why_tests_cant": "Any film, any selection, any positions.", "anchors": ["lib/dynamicParticles.cpp: makeBoo, makeSBoo"]}
{"id": "C129", "title": "g6 sums the products of bond order over the pairs at each distance", "statement": "Without periodic boundaries, g6 writes for each bin the sum of the products of the bond order tensors, and the number, of the pairs of particles that have a tensor, lie in the interval of heights, and are at the distance of that row, in diameters.", "quantifier": "all sets of particles, tensors, ranges, numbers of bins, intervals", "why_tests_cant": "Any positions, any tensors.", "anchors": ["mains/g6.cpp: main"]}
{"id": "C130", "title": "boo gives the bond order of the particles far from the sides, and the same when run again", "statement": "boo writes the mean of the harmonics of the bonds, of 1.3 diameters at most, of each particle far enough from the sides of the sample, and the mean of these tensors over the particle and its neighbours; null tensors elsewhere. Run again with the same arguments it gives the same results, and with another radius the results for this radius. The files are beside the input.", "quantifier": "all sets of particles, radii, harmonics, file names", "why_tests_cant": "The sides, bonds and files depend on each other; any positions, any number of runs.", "anchors": ["mains/boo.cpp: calculateBoo", "lib/particles.cpp: selectInside_noindex, makeNgbList, getBOOs_SurfBOOs, getCgBOOs", "lib/index.cpp: getInside"]}
{"id": "C131", "title": "linkboo gives the bond order of the particles that are not at the sides", "statement": "With lists of outsides, linkboo gives a tensor to the particles that do not touch a wall and a coarse grained one to those that have no neighbour at a wall; without lists, to the particles further than the bond length from the sides.", "quantifier": "all tessellations, all sets of particles, all bond lengths", "why_tests_cant": "Any tessellation, any positions.", "anchors": ["mains/linkboo.cpp: main", "mains/cgVoro.cpp: getOutsides", "lib/index.cpp: getInside"]}
{"id": "C132", "title": "avpos writes the mean position of each particle around each time", "statement": "avpos writes, for each frame and each particle, the mean of its positions, once the drift of the film is removed, over the frames of the averaging interval centred on this frame in which the particle is tracked; each file has as many positions as the frame, and no particle is moved out of the box in which it has been.", "quantifier": "all films, all trajectories, all averaging intervals", "why_tests_cant": "The mean depends on the trajectories, the drift and the ends of the film; any number of frames.", "anchors": ["mains/avpos.cpp: main", "lib/fields.hpp: DynamicField::push_back, isNull", "lib/dynamicParticles.cpp: removeDrift"]}
{"id": "C133", "title": "boo_flip compares bonded particles and counts their similar bonds", "statement": "boo_flip gives to each bond the normed product of degree 6 of the tensors of its particles, and the one after a half turn of one of them around the bond; both are between -1 and 1 and do not depend on how the particles are numbered; bonds with a particle at the side of the sample are marked -2; the number of each particle is the number of its bonds above one half.", "quantifier": "all sets of particles, tensors, bonds and selections", "why_tests_cant": "Any number of particles and bonds, any tensors.", "anchors": ["mains/boo_flip.cpp: main", "lib/boo_data.cpp: normedProduct, rotate_by_Pi"]}
{"id": "C134", "title": "g(r) counts every pair whatever the number of threads", "statement": "A histogram of distances filled by the parallel loop of Particles::Binner counts in each bin the number of pairs at this distance, for any number of threads, any distribution of the particles among them and any order of their instructions.", "quantifier": "all sets of particles, selections, bins, numbers of threads, distributions of the iterations and interleavings of loads and stores", "why_tests_cant": "A lost increment depends on the timing of the threads; no test can show that there is none.", "anchors": ["lib/particles.cpp: Particles::Binner::operator<<", "lib/particles.hpp: RdfBinner"]}
{"id": "C135", "title": "Averages over a film do not depend on the threads", "statement": "getDrift, getMSD(selection,t0,t1,t3) and get_MSD_NGP give the mean displacement, the mean square displacement and the non Gaussian parameter of the selection, for any number of threads and any order of their instructions.", "quantifier": "all films, selections, lags, numbers of threads, distributions of the iterations and interleavings of loads and stores", "why_tests_cant": "A lost update depends on the timing of the threads.", "anchors": ["lib/dynamicParticles.cpp: getDrift, getMSD, get_MSD_NGP"]}
{"id": "C136", "title": "Parallel loops with private elements give the sequential result", "statement": "The loops in which each iteration reads and writes its own elements (translation of particles, averages over time in DynamicField, followers of each particle in link, normalisation of get_MSD_NGP) have a single possible result, that of the sequential loop.", "quantifier": "all loops, numbers of threads, distributions of the iterations and interleavings of loads and stores", "why_tests_cant": "There are too many interleavings to try, and their choice is not under the control of a test.", "anchors": ["lib/particles.cpp: Particles::operator+=", "lib/fields.hpp: DynamicField::push_back", "lib/dynamicParticles.cpp: link, get_MSD_NGP"]}
{"id": "C137", "title": "The results of a time step go to the file of this step", "statement": "The programs that treat the time steps in parallel (cgVoro, linkboo, all_bonds, cage2vtk, traj2vtk) write the results of each step in the file whose name has the number of this step, and touch no other file.", "quantifier": "all sizes and offsets of series, all previous uses of the series, all numbers of threads, distributions of the steps and interleavings", "why_tests_cant": "A wrong name depends on the timing of the threads.", "anchors": ["lib/files_series.hpp: FileSerie::operator%", "mains/cgVoro.cpp, mains/linkboo.cpp, mains/cage2vtk.cpp, mains/traj2vtk.cpp, mains/all_bonds.cpp"]}
{"id": "C138", "title": "The centers found in a volume do not depend on the threads", "statement": "OctaveFinder3D::initialize_binary, whose loop is parallel, ends with the same centers whatever the number of threads and the order of their instructions, and the pixel number n is that of the center number n.", "quantifier": "all sets of centers found by the iterations, numbers of threads, distributions of the iterations and interleavings of the critical sections", "why_tests_cant": "The order of the pushes depends on the timing of the threads.", "anchors": ["multiscale/src/octavefinder.cpp: OctaveFinder3D::initialize_binary"]}
{"id": "C139", "title": "The programs MSD, ISF and dynamics write the functions of the lag time that are asked", "statement": "For each triplet of numbers start, stop, av of the command line, MSD and ISF write a file whose row d has the time d*dt and the mean square displacement, or the self intermediate scattering function, at lag d of the film without its drift, over the trajectories that exist during the whole interval. An interval that goes out of the film is refused with an error. dynamics writes these functions for the whole film.", "quantifier": "all films of trajectories, time steps and lists of triplets", "why_tests_cant": "The means range over all films; the integers of the command line are unbounded and are converted to size_t.", "anchors": ["mains/MSD.cpp", "mains/ISF.cpp", "mains/dynamics.cpp", "lib/dynamicParticles.cpp: getMSD, getSelfISF, removeDrift"]}
{"id": "C140", "title": "The program drift writes the mean displacement between successive times", "statement": "Each time of the film but the last one has a row with this time and the mean displacement, to the next time, of the trajectories that exist at both times; the null vector when there are less than two of them.", "quantifier": "all films of trajectories", "why_tests_cant": "The mean is over all films, with trajectories that begin and end at any time.", "anchors": ["mains/drift.cpp", "lib/dynamicParticles.cpp: getDrift, getSpanning"]}
{"id": "C141", "title": "The program percolation writes the groups of bonded particles of each frame", "statement": "The file of clusters of a frame lists the groups of at least two particles that are joined by a chain of bonds, each particle of a group once: the bonds of the files of bonds when they exist, those of the particles nearer than the range of the command line otherwise. The bonds found are saved for the next run.", "quantifier": "all films, ranges, sets of files of bonds", "why_tests_cant": "Connected components for all sets of bonds in all frames; which files exist is not under the control of a unit test.", "anchors": ["mains/percolation.cpp", "lib/dynamicClusters.cpp", "lib/particles.cpp: getNgbList, loadBonds"]}
{"id": "C142", "title": "The program cutter leaves no two particles nearer than the separation", "statement": "For each time of the series, the file that is written contains the particles of the input file of this time without those that are too near another (all of them with the option, else those that come after one that is kept), in the same order, and the same box; no two of them are nearer than the separation, cutting again removes nothing, and no other file is changed. A missing file stops the program.", "quantifier": "all files of particles, separations, series of files, tokens, postfixes (with output over the input included)", "why_tests_cant": "The geometry is quantified over all sets of particles; the names of output may be those of inputs.", "anchors": ["mains/cutter.cpp", "lib/particles.cpp: cut, removeShortRange, exportToFile", "lib/files_series.cpp: addPostfix, changeExt"]}
{"id": "C143", "title": "The program dat2vtk converts particles, bonds and bond order to VTK", "statement": "The VTK file has the points of the DAT file, a line for each bond of the file of bonds, and the fields Q4, Q6, W4, W6, cgQ4, cgQ6, cgW4, cgW6 with the invariants of the clouds of the particle and coarse grained.", "quantifier": "all names of files, particles, sets of bonds and clouds", "why_tests_cant": "A wrong column gives a well formed file; the names and sizes are unbounded.", "anchors": ["mains/dat2vtk.cpp", "lib/particles.cpp: exportToVTK, loadBoo", "lib/fields.hpp: ScalarField", "lib/boo_data.hpp: cloud_exporter"]}
{"id": "C144", "title": "The program linker makes the trajectories of a series of files", "statement": "From the files of positions of the series, the program writes a file of trajectories. Opening this file gives back the positions of all the frames, linked so that each particle of each frame is in exactly one trajectory, two successive positions of a trajectory are at less than a diameter, and two particles of successive frames at less than a diameter are left apart only if one of them is linked to a particle that is at least as near. With a file of displacements, this holds for the positions moved back by the displacements. A missing file of positions stops the program.", "quantifier": "all series of files, radii, time steps, spans and offsets", "why_tests_cant": "The result depends on all the frames together; a wrong link gives a well formed file.", "anchors": ["mains/linker.cpp", "lib/dynamicParticles.cpp: constructors, fill, removeDrift(file), link, save", "lib/files_series.cpp", "lib/traj.cpp: addTimeStep"]}
{"id": "C145", "title": "The programs rdf and periodic_rdf write the radial distribution function", "statement": "The file has a row for each bin: the distance r*range/bins in diameters and g, the number of pairs of particles at this distance (to the nearest image with periodic boundary conditions) per particle, over the number that the mean density gives in the shell. Only the particles whose sphere of radius the range is within the sample are centers; with periodic boundary conditions all of them are.", "quantifier": "all files of particles, radii, numbers of bins, ranges, boxes", "why_tests_cant": "g is a real function of all the positions; the choice of the centers near the edges only changes the values slightly in tests.", "anchors": ["mains/rdf.cpp", "lib/particles.cpp: getRdf, RdfBinner, getNumberDensity", "lib/periodic.cpp", "lib/index.cpp: getInside"]}
{"id": "C146", "title": "The program multiscale tracks every time step of a series", "statement": "For every time step from the first one asked, the file output_tNNN has one row for each center found in the bytes of this time step and kept: coordinates in units of the pixel (z multiplied by the ratio of the sizes of the voxel), radius, intensity; no kept center is inside the sphere of another, and the centers left out are in the sphere of a better one, or have a better one in theirs. No other file is changed. A kernel of deconvolution computed and saved by a run can be loaded by another, that gives the same files. Series that are not three dimensional and kernels of a wrong length are refused, without changing any file.", "quantifier": "all series, finders, kernels, first time steps, contents of the disk", "why_tests_cant": "The finder sees each frame through an offset in a mapped file; frames without particles, long series, old outputs and kernels of a wrong length are not in a test set.", "anchors": ["multiscale/main.cpp", "multiscale/src/lifFile.cpp: getOffset, getVoxelSize, getZXratio", "multiscale/src/center.hpp: removeHalfOverlapping", "multiscale/src/octavefinder.cpp: load_deconv_kernel, set_deconv"]}
{"id": "C147", "title": "The programs all_bonds and bonds write the bonds of every frame", "statement": "all_bonds, given a file of trajectories, writes next to it the mean radial distribution of the frames, unless there is one already, and for every frame a file of bonds: these are the pairs of particles nearer than the abscissa, in diameters, of the minimum of the distribution after its highest peak. Nothing else changes, and a second run changes nothing. What linker has written can be given to all_bonds. bonds does the same for one file, with the length it is given. Missing or empty files are refused, without writing anything.", "quantifier": "all films, positions, names of files, contents of the disk", "why_tests_cant": "The bonds are found through a spatial index and a histogram over all the frames; small samples, empty frames or a file left by another run are not in a test set.", "anchors": ["mains/all_bonds.cpp", "mains/bonds.cpp", "lib/particles.cpp: getRdf, makeNgbList, getBonds, loadBonds", "lib/files_series.cpp: changeExt, head"]}
{"id": "C148", "title": "The python class Linker keeps its tables inverse of each other and links by increasing distance", "statement": "Whatever frames are added, loaded or corrected, a position belongs to a trajectory if and only if that trajectory passes by it at that time; every trajectory covers consecutive frames inside the film, and nbtrajs counts those that started so far. addFrame takes the links by increasing distance: no two share a position, and every link left aside shares a position with a taken one that is not longer. update does the same with the trajectories lost one frame ago, adds a position for each in the frame before the last, and tells which have grown. Loading the frames again gives the same linker. The saved file is the one the C++ library writes and reads.", "quantifier": "all numbers of positions, sequences of calls, links and distances, orders of equal distances", "why_tests_cant": "The tables are changed together through long sequences of frames and corrections, and ties between distances can be broken in any order; tests follow a few short films.", "anchors": ["python/colloids/particles.py: class Linker"]}
{"id": "C149", "title": "In python, distances in a periodic box are those of the nearest image", "statement": "periodify gives the vector to the nearest image of the second point, in the half-open period around 0, whatever the image that is given; without period it gives the difference. The distance is symmetric. get_displ and the squared displacements built on it use the same vectors. remove_drift leaves the positions in the box.", "quantifier": "all positions, periods and images", "why_tests_cant": "The wrong branches are only taken when a coordinate decreases by more than half the box; the functions compile and run without complaint.", "anchors": ["python/colloids/periodic.py: periodify, dist_code, get_displ, remove_drift"]}
{"id": "C150", "title": "In python, averages over intervals of time use every interval once", "statement": "msd, overlap and time_correlation divide, at every lag, the sum over the origins of time by the number of these origins (all of them with av=0, the av first ones otherwise), and return one value per lag that exists; the totals returned by overlap are those of its counts.", "quantifier": "all numbers of frames, values of av, values of the terms", "why_tests_cant": "The error is in the counting of the terms at one lag among many; it changes a value by a small factor.", "anchors": ["python/colloids/periodic.py: msd, overlap", "python/colloids/statistics.py: timecorrel, time_correlation"]}
{"id": "C151", "title": "In python, the radial distribution in a periodic box counts nearest images", "statement": "The bin r of the distribution around a particle counts the other particles whose nearest image is at a distance between r and r+1 bins, half of the box being divided into Nbins bins.", "quantifier": "all positions, box sizes, numbers of bins, dimensions", "why_tests_cant": "It is a statement on real distances and all the images of all the particles.", "anchors": ["python/colloids/periodic.py: get_mono_rdf"]}
{"id": "C152", "title": "In python, the structure factor averages over distinct wave vectors of the same length", "statement": "generate_kvec gives at least 3 and at most maxNvec integer vectors of length nk, each once, with their cyclic permutations.", "quantifier": "all lengths and limits", "why_tests_cant": "The set of the vectors is never shown; the average over wrong vectors looks like a smooth structure factor.", "anchors": ["python/colloids/periodic.py: generate_kvec"]}
{"id": "C153", "title": "tracker writes the particles of every time step of a series", "statement": "For each time step of a LIF series, tracker writes in the file numbered by the time step the centers found in the image of this time step, with z in the unit of x; the numbers of particles of all the time steps go to one file, the intensities to their own files if asked. Asking for one time step gives the same file as asking for all. With extractRadii, the radii of a time step are measured in its image around its centers, in pixels. A series of images is tracked in the same way, and the first run makes the configuration.", "quantifier": "all series, paths, settings, trackers and contents of the disk", "why_tests_cant": "The errors depend on memory that is not initialised, on the place of the series in the file, or on the first run of a fresh account: a test machine that works once works always.", "anchors": ["graphic/mains/tracker.cpp", "graphic/radiiTracker.cpp: LifRadiiTracker, RadiiTrackerIterator", "graphic/serieTracker.hpp: SerieTracker::end"]}
{"id": "C154", "title": "In python, get_bonds finds exactly the pairs near enough, and bonds convert to lists of neighbours and back", "statement": "get_bonds gives, sorted and each one once, exactly the pairs of particles nearer than maxdist times the sum of their radii, with their distances. bonds2ngbs_list and bonds2ngbs give to each particle the other ends of its bonds, in the order of the bonds; the array is filled with -1 and is as wide as the largest number of bonds. ngbN2bonds gives each pair of neighbours once, smallest index first, sorted; it undoes bonds2ngbs. Bonds of particles that do not exist are refused.", "quantifier": "all positions in all dimensions, radii, distances and sets of bonds", "why_tests_cant": "An example has a few bonds: a pair missed by a search radius that is too small, a column too few or a pair repeated only shows with particular radii and orders.", "anchors": ["python/colloids/particles.py: get_bonds", "python/colloids/particles.py: bonds2ngbs_list, bonds2ngbs", "python/colloids/particles.py: ngbN2bonds"]}
{"id": "C155", "title": "In python, get_N_ngbs gives the N first neighbours and the particles inside", "statement": "get_N_ngbs gives for each particle its N nearest neighbours within the distance asked, nearest first; a particle whose neighbours would be further than the edge of the field of view is on the edge and only the neighbours nearer than the edge are kept.", "quantifier": "all positions, radii, N, distances and fields of view", "why_tests_cant": "The edge, ties and the particle itself in its own neighbourhood only show in the values of particular lines.", "anchors": ["python/colloids/particles.py: get_N_ngbs"]}
{"id": "C156", "title": "In python, non_overlapping keeps the first of particles that overlap", "statement": "The particles kept by non_overlapping do not overlap, and a particle is removed only if it overlaps a particle kept before it. The same for non_halfoverlapping, where overlap means nearer than the largest of the two radii.", "quantifier": "all positions in all dimensions and all radii", "why_tests_cant": "The result is a mask: that too many particles are removed does not show unless the distances are recomputed, and depends on the mix of radii.", "anchors": ["python/colloids/particles.py: non_overlapping", "python/colloids/particles.py: non_halfoverlapping"]}
{"id": "C157", "title": "In python, get_rdf counts each pair in the bin of its distance", "statement": "Each bin of get_rdf counts the pairs of distinct particles, the first one inside, at a distance between the bounds of the bin, lower bound included; together the bins count the pairs nearer than maxdist.", "quantifier": "all positions in all dimensions, masks, numbers of bins and distances", "why_tests_cant": "The bounds of the bins and a pair exactly at the largest distance are not met by positions drawn at random.", "anchors": ["python/colloids/particles.py: get_rdf"]}
{"id": "C158", "title": "In python, Grid finds all the points near a point", "statement": "Points in the box can all be added to a Grid, and each is found in its cell only. get_inside gives the points at least d cells away from the faces; iter_pairs gives once each pair of points whose first is inside and whose cells are at most d cells apart, so that no pair nearer than d cells along each axis is missed; get_near gives the points of the cells around a point.", "quantifier": "all sizes, divisions, dimensions, points and d", "why_tests_cant": "A mistake in the numbering of the cells mixes cells that are far apart only for some divisions.", "anchors": ["python/colloids/particles.py: class Grid"]}
{"id": "C159", "title": "In python, the reader of LIF files gives to each series the place of its own pixels", "statement": "For each series in the header that has pixels, the reader gives the offset in the file of the block of memory of that series, whatever blocks precede it and in both versions of the format; the C++ reader gives the same offsets. A file that is not well formed (wrong code, block cut short, block missing) is refused.", "quantifier": "all files with a header, any number of series and any sizes of blocks", "why_tests_cant": "Sample files come from the microscope: they are well formed, and a wrong offset still shows an image.", "anchors": ["python/colloids/lif.py: Reader.__init__", "python/colloids/lif.py: Header.getSeriesHeaders"]}
{"id": "C160", "title": "In python, the time stamps of a LIF series are those of the header", "statement": "getTimeStamps and getRelativeTimeStamps give the time stamps of the header, in order, at each call and whether the header is used by itself or through a reader; getTimelapse is the total duration divided by the number of intervals.", "quantifier": "all headers and all sequences of calls", "why_tests_cant": "A test calls each method once on a new header.", "anchors": ["python/colloids/lif.py: getTimeStamps", "python/colloids/lif.py: getRelativeTimeStamps", "python/colloids/lif.py: getTimelapse"]}
{"id": "C161", "title": "In python, frames and slices of a LIF series have the pixels of the coordinates asked", "statement": "The pixel x, y, z of getFrame(T) is the byte of the file at the place given by the increments of the dimensions, for all the orders of dimensions; enumByFrame gives each frame once, in order, as getFrame does; get2DSlice gives the same pixels as the frame; a time out of range and the dimensions of the slice itself are refused.", "quantifier": "all series, dimensions, increments and coordinates", "why_tests_cant": "An image whose dimensions are permuted or shifted by one frame looks as plausible as the right one.", "anchors": ["python/colloids/lif.py: getFrame", "python/colloids/lif.py: enumByFrame", "python/colloids/lif.py: enumBySlice", "python/colloids/lif.py: get2DSlice"]}
{"id": "C162", "title": "In python, the choice of a series ends with a series that exists", "statement": "chooseSerieIndex and chooseChannel ask until the answer is valid and give a valid index; with a single series or a single channel nothing is asked; previews are recognised.", "quantifier": "all the sequences of answers", "why_tests_cant": "The questions are interactive and are not tested.", "anchors": ["python/colloids/lif.py: chooseSerieIndex", "python/colloids/lif.py: chooseChannel", "python/colloids/lif.py: isPreview"]}
{"id": "C163", "title": "The python class reads the trajectory files that the C++ classes save", "statement": "For every trajectory file saved by the C++ code, Experiment reads the same radius, time step, pattern, token, offset and size, the same starting times and positions, and counts the same number of trajectories; it makes the same names of files of positions for all the times.", "quantifier": "all experiments, any number of trajectories", "why_tests_cant": "Files shared between two languages are only tested, if at all, on one sample.", "anchors": ["python/colloids/experiment.py: Experiment.read_traj", "python/colloids/experiment.py: load_trajectories", "python/colloids/experiment.py: Experiment.nb_trajs", "python/colloids/experiment.py: Experiment.read_pattern", "python/colloids/experiment.py: Experiment.enum", "lib/dynamicParticles.cpp"]}
{"id": "C164", "title": "In python, p2tr gives the trajectory of each position", "statement": "For each time, p2tr gives one number for each position, that of the trajectory the position is in; for trajectories built by the C++ code it is the inverse index of the C++ code; trajectories with a position that does not exist are refused.", "quantifier": "all experiments and trajectories", "why_tests_cant": "A position attributed to another trajectory is still a valid number.", "anchors": ["python/colloids/experiment.py: Experiment.p2tr"]}
{"id": "C165", "title": "In python, load_all gives the positions of all the trajectories, without drift if asked", "statement": "load_all gives for each trajectory and each of its times the position in the file of that time; with removedrift, the same displacement is removed from all the trajectories at a same time, and the mean displacement of the trajectories between two successive times is null.", "quantifier": "all experiments, any first time", "why_tests_cant": "Tests use experiments that begin at time 0, and a drift is known only by the mean that is removed.", "anchors": ["python/colloids/experiment.py: Experiment.load_all"]}
{"id": "C166", "title": "In python, densities are those of the bounding box and of the slab asked", "statement": "get_Nb_density gives at each time the number of particles and the volume of the smallest box that contains them; get_zPortion_Nbd gives those of the particles between the two margins.", "quantifier": "all positions and margins", "why_tests_cant": "The result is a plausible number, that nothing else gives.", "anchors": ["python/colloids/experiment.py: Experiment.get_Nb_density", "python/colloids/experiment.py: Experiment.get_zPortion_Nbd"]}
{"id": "C167", "title": "In python, the mean square displacement of an experiment does not depend on the drift", "statement": "Experiment.msd gives, for the trajectories that exist at both times, the mean square displacement with respect to their mean displacement; it is null when all the particles move together.", "quantifier": "all positions and trajectories", "why_tests_cant": "A wrong drift adds a small and smooth contribution to the curve.", "anchors": ["python/colloids/experiment.py: Experiment.msd"]}
{"id": "C168", "title": "In python, a window of time keeps the trajectories that exist during all of it", "statement": "Txp keeps, in order, the trajectories that exist at all the times of the window asked, which is cut to the times of the experiment, and reads for each of them and each time the position of its particle in the file of that time.", "quantifier": "all experiments, trajectories and windows", "why_tests_cant": "Tests use experiments that begin at time 0; the position of another particle is still a position.", "anchors": ["python/colloids/experiment.py: Txp.__init__", "python/colloids/experiment.py: Txp.read_trajs", "python/colloids/experiment.py: Txp.read_pos"]}
{"id": "C169", "title": "In python, a window of time has its drift removed, and nothing else", "statement": "After the constructor of Txp, the mean position of the trajectories is the same at all the times, the positions at the first time are those of the file, and the positions of two trajectories at a same time differ by the same vector as in the file.", "quantifier": "all positions and windows", "why_tests_cant": "The drift is only known by the mean that is removed.", "anchors": ["python/colloids/experiment.py: Txp.remove_drift", "python/colloids/experiment.py: Txp.__init__"]}
{"id": "C170", "title": "In python, the mean square displacement and the non gaussian parameter of a window are means over the intervals asked", "statement": "Txp.msd(start, stop, av) gives, for each lag, the mean over the particles of the square displacement, in units of the square diameter, averaged over all the intervals between start and stop (av = 0) or over av origins of time; nonGaussian gives the parameter of the same displacements; the two exports save them with the time of each lag.", "quantifier": "all positions, start, stop and av", "why_tests_cant": "A wrong number of intervals gives a smooth curve.", "anchors": ["python/colloids/experiment.py: Txp.msd", "python/colloids/experiment.py: Txp.export_msd", "python/colloids/experiment.py: Txp.self_isf", "python/colloids/experiment.py: Txp.export_self_isf", "python/colloids/experiment.py: Txp.nonGaussian"]}
{"id": "C171", "title": "In python, broken bonds are those that existed and do not exist any more between particles that still exist", "statement": "broken_bonds(t0, t1) is the set of the pairs of trajectories that are bonded at t0, both exist at t1, and are not bonded at t1; Txp.load_bonds(t) gives the bonds between the trajectories of the window, sorted.", "quantifier": "all bonds and trajectories, all times", "why_tests_cant": "The order of positions in files changes at each time; a bond attributed to other trajectories is still a bond.", "anchors": ["python/colloids/experiment.py: Experiment.broken_bonds", "python/colloids/experiment.py: Txp.load_bonds"]}
{"id": "C172", "title": "In python, the bonds that never form again are found with the time they break", "statement": "neverreform(L) gives for each time the bonds that break at that time, whose members are then at a distance on the graph of the bonds larger than L, and that do not exist at any later time; never_closer(L) gives those whose members stay at a distance larger than L.", "quantifier": "all sequences of bonds and trajectories, all L", "why_tests_cant": "Depends on the whole history: a bond may break and form again any number of times.", "anchors": ["python/colloids/experiment.py: Experiment.neverreform", "python/colloids/experiment.py: Experiment.never_closer", "python/colloids/experiment.py: broken_bonds_path", "python/colloids/experiment.py: shortest_path"]}
{"id": "C173", "title": "In python, the bonds around given bonds are found", "statement": "neighbouring_bonds gives the set of the bonds that share exactly one member with a bond of interest at the time asked.", "quantifier": "all bonds, trajectories and bonds of interest", "why_tests_cant": "The result is a list of plausible bonds.", "anchors": ["python/colloids/experiment.py: Experiment.neighbouring_bonds"]}
{"id": "C174", "title": "In python, peaks and minima of a curve are found in decreasing order of intensity", "statement": "find_peak_mins ends for every curve; the peaks and minima alternate, the first peak is the maximum of the curve, each minimum is the smallest value after its peak and each other peak the largest value after the previous minimum; peaks do not increase and minima do not decrease.", "quantifier": "all curves", "why_tests_cant": "Termination depends on the end of the curve; no test can show that a loop ends for all curves.", "anchors": ["python/colloids/experiment.py: find_peak_mins"]}
{"id": "C175", "title": "In python, the bond orientational order of a particle is the mean of the spherical harmonics of its bonds", "statement": "vect2Ylm gives the spherical harmonics of the direction of a vector, whatever its length; bonds2qlm gives to each particle the mean over its neighbours of the spherical harmonics of the vectors to them (0 without neighbour), as single_pos2qlm does from the list of its neighbours, whatever the order in which the ends of each bond are listed and with periodic boundaries.", "quantifier": "all degrees, positions, bonds and periods", "why_tests_cant": "Whether the two ends of a bond may share its coefficients depends on the parity of the degree; tests compare with files made by the C++ at degree 6.", "anchors": ["python/boo/boo.py: cart2sph", "python/boo/boo.py: vect2Ylm", "python/boo/boo.py: single_pos2qlm", "python/boo/boo.py: bonds2qlm"]}
{"id": "C176", "title": "In python, coarse graining averages the coefficients on a particle and its neighbours", "statement": "coarsegrain_qlm gives to each particle (q(i) + sum of q(j)) / (N+1), over its N neighbours, and the mask of the particles that are inside and have only neighbours inside; it gives 0 to the others.", "quantifier": "all coefficients, bonds and masks", "why_tests_cant": "A mean that leaves out the particle itself has the same magnitude.", "anchors": ["python/boo/boo.py: coarsegrain_qlm"]}
{"id": "C177", "title": "In python, the product of coefficients is a scalar product over all orders", "statement": "get_qlm gives the coefficients of negative orders from those of positive ones; boo_product is 4 pi/(2l+1) times the scalar product over the orders -l to l; ql is its norm; the product is symmetric and at most the product of the norms.", "quantifier": "all coefficients of all degrees", "why_tests_cant": "The inequality is a statement on all pairs of vectors of coefficients.", "anchors": ["python/boo/boo.py: get_qlm", "python/boo/boo.py: boo_product", "python/boo/boo.py: abs2", "python/boo/boo.py: ql"]}
{"id": "C178", "title": "In python, the third order invariant is the sum with the Wigner 3j symbols", "statement": "get_w3j gives the Wigner 3j symbol of the degree and the three orders, and wl the sum over all the triples of orders of null sum of the symbol times the three coefficients.", "quantifier": "all degrees and orders, all coefficients", "why_tests_cant": "The table is typed by hand; a sign or a digit wrong gives plausible invariants.", "anchors": ["python/boo/boo.py: get_w3j", "python/boo/boo.py: wl", "python/boo/boo.py: _w3j", "python/boo/boo.py: _w3j_m1_offset"]}
{"id": "C179", "title": "Python and C++ agree on the bond orientational order, which is bounded and does not depend on the orientation of the sample", "statement": "For the degrees of the C++ (even, at most 10): the coefficients of a bond, ql, the products and the third order invariant (before normalisation) are the same in the two languages. The product of two bonds is the Legendre polynomial of the cosine of their angle; ql of every particle given by bonds2qlm is between 0 and 1; rotating, translating or reflecting the sample changes neither ql nor the products.", "quantifier": "all vectors, coefficients, positions, bonds and maps that preserve the distances", "why_tests_cant": "Two implementations with different treatments of the poles; invariance by all the rotations cannot be sampled.", "anchors": ["python/boo/boo.py: vect2Ylm", "python/boo/boo.py: ql", "python/boo/boo.py: boo_product", "python/boo/boo.py: wl", "python/boo/boo.py: bonds2qlm", "lib/boo_data.cpp: BooData::BooData(const Coord &)", "lib/boo_data.cpp: BooData::getQl", "lib/boo_data.cpp: BooData::innerProduct", "lib/boo_data.cpp: BooData::getInvarients"]}
{"id": "C180", "title": "In python, the spatial correlation of the bond orientational order bins each pair of particles by its distance", "statement": "gG_l counts in each bin the pairs of distinct particles, the first one a center, nearer than maxdist, whose distance is in the interval of the bin, and adds the products of their coefficients; normalised by the counts the correlation is between -1 and 1.", "quantifier": "all positions, coefficients, masks, numbers of bins and distances", "why_tests_cant": "A pair exactly at the largest distance is rare with real numbers and common on a lattice.", "anchors": ["python/boo/boo.py: gG_l"]}
{"id": "C181", "title": "In python, the variables of the phase diagrams are converted without loss", "statement": "f and the volume fraction, the osmotic pressures in units of colloids and of polymers, f and U = log(1/f - 1/f_cp) are converted into one another by functions that are inverse of each other; U2f never reaches close packing; logOnePlusX(x) is log(1+x) for all x above -1.", "quantifier": "all arguments in the domains", "why_tests_cant": "A rational approximation with a wrong digit is right to 10 digits on a sample; inverse functions are claimed for all values.", "anchors": ["python/colloids/phase.py: logOnePlusX", "python/colloids/phase.py: f2vf, vf2f", "python/colloids/phase.py: piv2y, y2piv", "python/colloids/phase.py: f2U, U2f", "python/colloids/phase.py: eta_cp, f_cp"]}
{"id": "C182", "title": "In python, alpha is the fraction of the volume that is free to the polymers", "statement": "alpha is the exponential of minus the work needed to insert a polymer of relative size q in the fluid of hard spheres (Widom, scaled particle theory); it is in (0,1] and decreases with the amount of colloids and the size of polymers; Q1..Q3 and beta1..beta3 are the successive derivatives of Q and beta; the contributions g and h of the polymers to chemical potential and pressure derive from one free energy.", "quantifier": "all packings and size ratios", "why_tests_cant": "A wrong coefficient changes the diagrams smoothly; there is no reference value in the code.", "anchors": ["python/colloids/phase.py: A, B, C, Q, Q1, Q2, Q3", "python/colloids/phase.py: beta, beta1, beta2, beta3", "python/colloids/phase.py: g, h, alpha", "python/colloids/phase.py: xp2th"]}
{"id": "C183", "title": "In python, the pressure of each equation of state is the volume fraction times its compressibility and the derivatives are right", "statement": "In every class pv_0 is phi Z, pv_0_1 and pv_0_2 are its first and second derivatives with respect to f, pv_0_ratio their ratio; without polymers the pressure of a fluid increases with the packing.", "quantifier": "all classes and packings in their domains", "why_tests_cant": "Derivatives written by hand in terms of another variable are right or wrong at all points; the numerical ones have an error.", "anchors": ["python/colloids/phase.py: EquationOfState", "python/colloids/phase.py: CarnahanStarling", "python/colloids/phase.py: CarnahanStarling2", "python/colloids/phase.py: Kolafa", "python/colloids/phase.py: LeFevre", "python/colloids/phase.py: Liu", "python/colloids/phase.py: Hall"]}
{"id": "C184", "title": "In python, the chemical potential of each equation of state goes with its pressure", "statement": "The derivative of the pressure is the volume fraction times that of the chemical potential (Gibbs and Duhem), with and without polymers; the chemical potential tends to log f for a dilute fluid; omega has the chemical potential for derivative with respect to the volume fraction; the functions of log(f) and of U are those of f.", "quantifier": "all classes, packings, osmotic pressures and size ratios", "why_tests_cant": "Consistency of two functions at all points; a constant added to one of them is not seen in one phase.", "anchors": ["python/colloids/phase.py: mu_0_nolog, mu_0, mu, omega", "python/colloids/phase.py: mu_of_log, pv_of_log, omega_of_log", "python/colloids/phase.py: mu_of_U, pv_of_U", "python/colloids/phase.py: tointegrate"]}
{"id": "C185", "title": "In python, the critical point, the spinodal and the binodal are those of the pressure", "statement": "critical_point returns the packing and the osmotic pressure at which the first two derivatives of the pressure vanish; spinodalGL the packings at which the first one does; binodalGL two packings with the same pressure and chemical potential, a gas and a liquid.", "quantifier": "all classes, size ratios, osmotic pressures and solvers", "why_tests_cant": "The equations that are solved must be equivalent to the definition for all parameters.", "anchors": ["python/colloids/phase.py: critical_point", "python/colloids/phase.py: spinodalGL", "python/colloids/phase.py: binodalGL"]}
{"id": "C186", "title": "In python, coexistence, triple and critical_end_point return phases in equilibrium", "statement": "The packings returned are between zero and close packing and have the same pressure and the same chemical potential up to the constant Delta_muS_0, that is such that fluid and solid of hard spheres coexist at f_HSf and f_HSs without polymers.", "quantifier": "all equations of state, size ratios, osmotic pressures and solvers", "why_tests_cant": "Whether the equations in the changed variable are those of equilibrium; whether the line that is written and not solved for is one.", "anchors": ["python/colloids/phase.py: coexistence", "python/colloids/phase.py: all_coexistence", "python/colloids/phase.py: triple", "python/colloids/phase.py: critical_end_point"]}
{"id": "C187", "title": "In python, the tables of a phase diagram are sorted and consistent", "statement": "all_GL returns one line per osmotic pressure, increasing from the critical point to the maximum, with phases in equilibrium and the spinodal of the same pressure; generate returns three tables that start from the same triple point, one line per pressure, with phases in equilibrium.", "quantifier": "all equations of state, size ratios, maximal pressures and samplings", "why_tests_cant": "Tables made of several pieces in opposite orders; values followed from one line to the next.", "anchors": ["python/colloids/phase.py: all_GL", "python/colloids/phase.py: all_coexistence", "python/colloids/phase.py: generate"]}
{"id": "C188", "title": "In python, the analytic blur of a ball and the conversions of scales into radii agree", "statement": "radius2scale and scale2radius, radius2sigma and sigma2radius are inverse functions; G is the value of a blurred ball at a distance from its center, DoG the difference of two blurs, G_dsigma and G_dsigma_dR their derivatives; a ball gives the strongest response at the blur that radius2sigma returns.", "quantifier": "all radii, blurs, distances, numbers of layers", "why_tests_cant": "Integrals over a ball written in closed form; a missing factor at a distance is not seen at the center.", "anchors": ["python/colloids/track.py: radius2scale, scale2radius", "python/colloids/track.py: radius2sigma, sigma2radius", "python/colloids/track.py: halfG, midG, G, DoG", "python/colloids/track.py: G_dsigma, DoG_dsigma", "python/colloids/track.py: G_dsigma_dR, DoG_dsigma_dR"]}
{"id": "C189", "title": "In python, the radii of touching particles are corrected by one step of Newton", "statement": "global_rescale_intensity returns the radii at which the slope of the response of all particles together, linearised around the radii given, vanishes at the scale where each particle was found; radii that explain the scales do not change; isolated particles get the radius of their scale; global_rescale is the same with equal brightnesses; inconsistent lists of bonds are refused.", "quantifier": "all numbers of particles, bonds, distances, scales, brightnesses", "why_tests_cant": "The jacobian is built bond by bond; an error in one term still converges, elsewhere.", "anchors": ["python/colloids/track.py: global_rescale_intensity", "python/colloids/track.py: global_rescale"]}
{"id": "C190", "title": "In python, solve_intensities returns the brightness of the particles", "statement": "The brightnesses returned are those of balls which would give, all together, the measured values of the response.", "quantifier": "all numbers of particles, bonds, distances, radii", "why_tests_cant": "The measured values of a test are usually made with the same function.", "anchors": ["python/colloids/track.py: solve_intensities"]}
{"id": "C191", "title": "In python, the drawn mask covers the particles", "statement": "draw_spheres lights exactly the voxels of the image at no more than the radius from a center; draw_rods lights exactly the voxels at no more than the radius from the axis of a rod and from its center along Z; centers outside of the image and lists of different lengths are refused.", "quantifier": "all shapes, positions, radii, numbers of particles", "why_tests_cant": "The box of each particle is cut at the edges of the image and rounded; tests do not cover all fractional positions.", "anchors": ["python/colloids/track.py: draw_spheres", "python/colloids/track.py: draw_rods"]}
{"id": "C192", "title": "In python, clusters of centers are those that touch, and are split around their largest members", "statement": "label_clusters puts two centers in the same cluster if and only if a chain of touching centers joins them, and every center in exactly one cluster. split_clusters ends, keeps every particle exactly once, only splits the clusters it is given, and leaves clusters whose largest member overlaps all the other members.", "quantifier": "all clusters, radii, positions", "why_tests_cant": "A loop that splits until nothing changes: the end and the absence of loss hold for all the runs or not at all.", "anchors": ["python/colloids/track.py: split_clusters", "python/colloids/track.py: label_clusters"]}
{"id": "C193", "title": "In python, the finder at one scale returns the local maxima, refined", "statement": "CrockerGrierFinder returns the pixels that are the maximum of their surroundings, without elongated ones; the sub-pixel correction finds the top of a parabolic blob.", "quantifier": "all images and sizes, thresholds", "why_tests_cant": "Which pixel is a local maximum depends on all of its neighbours; the exchange of two coordinates is not seen with symmetric blobs on the diagonal.", "anchors": ["python/colloids/track.py: CrockerGrierFinder.initialize_binary", "python/colloids/track.py: CrockerGrierFinder.subpix", "python/colloids/track.py: CrockerGrierFinder.__call__"]}
{"id": "C194", "title": "In python, the finder of one octave returns the minima in space and scale, refined", "statement": "OctaveBlobFinder returns the negative pixels of the inner layers, far enough from the edges for their size, that are minima of their neighbours in space and scale; the refined position is within the size of the blob and half a layer; the blurs of the layers multiply by two over an octave, which gives the radius.", "quantifier": "all images, sizes, numbers of layers", "why_tests_cant": "Space and scale have many neighbours and edges; a wrong blur of one layer changes the radii a little.", "anchors": ["python/colloids/track.py: OctaveBlobFinder.initialize_binary", "python/colloids/track.py: OctaveBlobFinder.subpix", "python/colloids/track.py: OctaveBlobFinder.get_iterative_radii", "python/colloids/track.py: OctaveBlobFinder.fill", "python/colloids/track.py: OctaveBlobFinder.__call__"]}
{"id": "C195", "title": "In python, the blobs of all the octaves are merged in the coordinates of the image", "statement": "MultiscaleBlobFinder never gives an octave an image of a wrong shape, whatever the size and the dimension; all coordinates returned are inside of the image and exact if those of an octave are; radii are those of the scale asked for; of overlapping blobs the most intense is kept; an image too small gives an empty result.", "quantifier": "all shapes, numbers of octaves, options, finders of one octave", "why_tests_cant": "Odd sizes, one of the octaves missing, other scales than the default and chains of overlaps are not all tried.", "anchors": ["python/colloids/track.py: MultiscaleBlobFinder.__init__", "python/colloids/track.py: MultiscaleBlobFinder.__call__"]}
{"id": "C196", "title": "In python, the viscoelastic modulus of the mean square displacement is that of generalised Stokes and Einstein", "statement": "msd2G gives the modulus of a power law, i eta omega for a free diffusion of viscosity eta and a real modulus for constant displacements; logderive returns exact logarithmic derivatives of a function whose logarithm is a parabola; lists of different lengths are refused.", "quantifier": "all positive lists of lags dense enough for the width of the smoothing, all exponents, radii, temperatures", "why_tests_cant": "A wrong unit, factor or exponent gives another plausible modulus; the right answer is a formula, not a number.", "anchors": ["python/colloids/microrheology.py: logderive", "python/colloids/microrheology.py: msd2G"]}
{"id": "C197", "title": "In python, lags chosen for a logarithmic plot are spread by a constant factor and in the range", "statement": "log_msd_vs_tau returns couples of the two lists, without repetition, in order, from the first positive lag, never more than a factor of 1.15 apart but for rounding, up to maxtime seconds.", "quantifier": "all lists, all maximum times", "why_tests_cant": "The ranks come from a geometric series that is rounded; which index is out of the list depends on all lengths and on the unit of time.", "anchors": ["python/colloids/microrheology.py: log_msd_vs_tau"]}
{"id": "C198", "title": "In python, the phase correlation of two images gives the displacement between them", "statement": "For two images that differ by a displacement on a torus, phaseCorrel is one at the displacement and zero elsewhere; getDispl and getDisplConfidence return the displacement, positive or negative; the confidence is at least one.", "quantifier": "all sizes, images and displacements", "why_tests_cant": "The sign and the wrapping of the displacement depend on the parity of the sizes; a spectrum with zeros is not met with noisy images.", "anchors": ["python/colloids/phaseCorrelation.py: phaseCorrel", "python/colloids/phaseCorrelation.py: getDispl", "python/colloids/phaseCorrelation.py: getDisplConfidence"]}
{"id": "C199", "title": "In python, interrogation windows cover the image and have their coordinates", "statement": "sub_windows returns the squares of the image at all the multiples of the step that fit, without reading out of the image; get_coordinates returns the center of each of them.", "quantifier": "all sizes of images, windows, overlaps", "why_tests_cant": "Strides are computed by hand: an error reads other pixels without any exception.", "anchors": ["python/colloids/phaseCorrelation.py: sub_windows", "python/colloids/phaseCorrelation.py: get_field_shape", "python/colloids/phaseCorrelation.py: get_coordinates"]}
{"id": "C200", "title": "In python, differential dynamic microscopy averages the spectra of differences of images", "statement": "spectreDiff has the sum given by Parseval, is zero only for equal images and does not depend on the position; timeAveraged is the mean over at most navmax regular couples of images separated by the interval; logSpaced returns increasing intervals lower than the number of images.", "quantifier": "all images, sizes, numbers of images, intervals and maxima", "why_tests_cant": "The number of couples depends on a division that rounds down; a normalisation error changes no shape of a curve.", "anchors": ["python/colloids/ddm.py: spectreDiff", "python/colloids/ddm.py: timeAveraged", "python/colloids/ddm.py: logSpaced"]}
{"id": "C201", "title": "In python, the radial average of a spectrum is the mean over rings of frequency", "statement": "RadialAverager gives for each ring of width the finest frequency the mean over its pixels, which are not none; an isotropic spectrum is returned as it is; ddm is the radial average of the time average, and zero if nothing moves.", "quantifier": "all spectra and shapes", "why_tests_cant": "Rings without pixel or frequencies put in the wrong ring depend on the shape of the image.", "anchors": ["python/colloids/ddm.py: RadialAverager", "python/colloids/ddm.py: radialAverage", "python/colloids/ddm.py: ddm"]}
{"id": "C202", "title": "In python, bonds and outside particles are loaded from the cells of Voro++", "statement": "load_vorobonds returns each pair of neighbours once, in lexicographic order, and the particles that touch a wall; get_second_outside adds to these the particles bonded to them.", "quantifier": "all files of cells", "why_tests_cant": "A particle that touches a wall and has no bond after it is rare; duplicates and order are not seen on a picture.", "anchors": ["python/colloids/voro.py: load_vorobonds", "python/colloids/voro.py: get_second_outside"]}
{"id": "C203", "title": "In python, the coarse-grained volume is a mean over cells that do not touch a wall", "statement": "cgVolume gives to each particle the mean of the volumes of its cell and of those it is a neighbour of, without the cells that touch a wall, and zero if there is none.", "quantifier": "all files of cells", "why_tests_cant": "A wrong count near walls gives volumes of the right order of magnitude.", "anchors": ["python/colloids/voro.py: cgVolume"]}
{"id": "C204", "title": "In python, fields are averaged or dilated over the bonds of a Polydata", "statement": "coarseGrainField gives the mean over a particle and its neighbours, dilateField the maximum over a particle and its neighbours.", "quantifier": "all bonds and fields", "why_tests_cant": "An index repeated in an assignment of numpy keeps the last value without any error: the result is wrong by an amount that depends on the order of the bonds.", "anchors": ["python/colloids/vtk.py: coarseGrainField", "python/colloids/vtk.py: dilateField"]}
{"id": "C205", "title": "In python, the spatial correlation is the mean of the products of values over pairs at a distance", "statement": "spatialCorelation gives for each bin of distances its distance and the mean over pairs, one of which is far from the borders, of the products of their values.", "quantifier": "all points, fields, numbers of bins and maximum distances", "why_tests_cant": "The pairs lost depend on the order the tree returns them; a correlation has no known value on real data.", "anchors": ["python/colloids/vtk.py: spatialCorelation"]}
{"id": "C206", "title": "In python, a Polydata that is saved is loaded back", "statement": "After save, load gives the same name, points, bonds, and fields on the points and on the bonds.", "quantifier": "all Polydata with one value of each field by point or bond", "why_tests_cant": "A roundtrip on one file does not show what sections are ignored or confused.", "anchors": ["python/colloids/vtk.py: save", "python/colloids/vtk.py: load"]}
{"id": "C207", "title": "In python, the first and last times of bonds are found", "statement": "bond_life gives for each pair of trajectories the first and the last time when they are bonded; bond_last yields at each time the bonds that were last seen persistence+1 times before and not since, and at the end those that are still waited for.", "quantifier": "all sequences of bonds, times of beginning and persistences", "why_tests_cant": "A bond that breaks and forms again must be followed over the whole experiment; a sparse matrix treats the time 0 in a special way.", "anchors": ["python/colloids/experiment.py: Experiment.bond_life", "python/colloids/experiment.py: Experiment.bond_last"]}
{"id": "C208", "title": "In python, trajectories are selected by altitude and by null values", "statement": "z_slab with allTimes keeps the trajectories that are in the slab at all times and without it those that are in it at some time; exclude_null removes the trajectories that have a null value at some time and no other.", "quantifier": "all trajectories, slabs, fields and times of beginning", "why_tests_cant": "The selections differ only for trajectories that cross the limits of the slab or fields with negative values.", "anchors": ["python/colloids/experiment.py: Txp.z_slab", "python/colloids/experiment.py: Txp.exclude_null"]}
{"id": "C209", "title": "In python, the time correlation of a field of trajectories is averaged over the asked starts", "statement": "time_correlation with av starts is the mean over trajectories and over av starting times of the product of the field at two times, normalised to 1 at the origin; av=0 uses all starts.", "quantifier": "all fields, numbers of times and of starts", "why_tests_cant": "A start that is forgotten changes the result by a little noise.", "anchors": ["python/colloids/experiment.py: Txp.time_correlation"]}
{"id": "C210", "title": "In python, a field is dilated and averaged over bonds", "statement": "dilate gives to each particle the value of largest absolute value among itself and its neighbours; average gives half of its value plus half of the mean of its neighbours, stays between the bounds of the field and works for each graph.", "quantifier": "all fields and graphs of bonds", "why_tests_cant": "Isolated particles and particles that are themselves the maximum are rare in a small example.", "anchors": ["python/colloids/experiment.py: dilate", "python/colloids/experiment.py: average"]}
{"id": "C211", "title": "In python, histograms lose no data", "statement": "decimate_hist joins consecutive bins until each one has more than the threshold, keeps the total of each column and does not change its argument; histograms of meanMap1D have each point between the edges once; the means are between the bounds of the values and empty cells are recognised.", "quantifier": "all histograms, thresholds, edges, points and values", "why_tests_cant": "Points on an edge and repeated calls on the same array depend on the data.", "anchors": ["python/colloids/statistics.py: decimate_hist", "python/colloids/statistics.py: meanMap1D", "python/colloids/statistics.py: meanMap"]}
{"id": "C212", "title": "In python, space and orientation correlations are normalised", "statement": "space_correlation does not depend on the mean of the values, is 1 in a first bin that has only the particles themselves and is a number; correlate_qlm gives the normalised correlation of the coefficients.", "quantifier": "all positions, values, bins and coefficients", "why_tests_cant": "The value at the origin is 1 by construction for a test with simple values, whatever is done of other bins.", "anchors": ["python/colloids/statistics.py: space_correlation", "python/colloids/statistics.py: correlate_qlm"]}
{"id": "C213", "title": "In python, structure factors are the normalised spectra averaged over wave vectors", "statement": "ImageStructureFactor is in each bin the mean of the spectrum over the mean of all the spectrum, 1 for a white spectrum; StructureFactor2D gives that of positions; StructureFactor3D bins each wave vector by its length and get_S is the mean over configurations, with the variance of the number of particles in the first bin.", "quantifier": "all shapes, spectra, positions and sequences of configurations", "why_tests_cant": "A wrong dimension is not seen on cubic boxes, a normalisation is not seen with one configuration.", "anchors": ["python/colloids/statistics.py: ImageStructureFactor", "python/colloids/statistics.py: StructureFactor2D", "python/colloids/statistics.py: StructureFactor3D"]}
{"id": "C214", "title": "In python, clusters of trajectories are the connected components of their bonds", "statement": "Txp.get_clusters puts two trajectories in the same cluster when a chain of bonds between declared nodes joins them; a node without such a bond is in no cluster; get_time_clusters follows the clusters in time.", "quantifier": "all bonds, trajectories and sets of nodes", "why_tests_cant": "The array of positions is as long as the last bonded position: it fails only when a node is after it.", "anchors": ["python/colloids/experiment.py: Txp.get_clusters", "python/colloids/experiment.py: Txp.get_time_clusters"]}
{"id": "C215", "title": "In python, the life time and the length of trajectories are exported", "statement": "traj_crea_dest gives the first time of each trajectory and the time after its last one; vtk_tracking writes at each position of each time the length of the trajectory that has it.", "quantifier": "all complete sets of trajectories and times of beginning", "why_tests_cant": "Positions without a trajectory leave values that are not initialised; a time of beginning other than 0 shifts the files.", "anchors": ["python/colloids/experiment.py: Experiment.traj_crea_dest", "python/colloids/experiment.py: Experiment.vtk_tracking"]}
{"id": "C216", "title": "traj2vtk writes for each frame the averages over the asked interval", "statement": "For a linked film with its files of bonds and invariants, traj2vtk with an averaging interval writes for each frame a VTK file with the positions, the bonds, the velocities, the number of lost neighbours and, under their names, the eight invariants averaged along the trajectories over this interval. Run again with the same arguments it leaves the same files; run with another interval it gives the results for this one; a missing file is an error.", "quantifier": "all films, all disks, all intervals", "why_tests_cant": "the state of the disk at the start decides what is computed: tests run in a clean folder", "anchors": ["mains/traj2vtk.cpp: main, export_timeBoo, export_phi, export_lostNgb", "lib/fields.hpp: DynamicField", "lib/particles.cpp: loadBoo"]}
{"id": "C217", "title": "cage2vtk gives the distribution of the durations of cages and the bond order averaged in cages", "statement": "cage2vtk writes for each duration the number of cages that have it, and in the VTK files gives to each particle the invariants of its own line in the file of averages.", "quantifier": "all sets of cages, all numbers of particles", "why_tests_cant": "no test has a particle that stays in its cage for all the film, and a wrong line of a file still looks like an invariant", "anchors": ["mains/cage2vtk.cpp: main, export_timeBoo", "lib/particles.cpp: loadBoo"]}
{"id": "C218", "title": "In python, get_links gives all the pairs of two configurations closer than a distance", "statement": "get_links gives exactly the pairs of a particle of the first configuration and a particle of the second that are closer than maxdist, each once, with their distance; get_links_size gives the same pairs with a distance in positions and sizes that scales as a length.", "quantifier": "all configurations, radii and distances, all valid heuristics of the R* tree", "why_tests_cant": "a pair lost by the spatial index only shows as a trajectory that is cut; in usual data radii are all 1", "anchors": ["python/colloids/particles.py: get_links, get_links_size"]}
{"id": "C219", "title": "In python, the radial distributions with an R* tree count each pair of their selection once", "statement": "Each bin of get_srdf, get_planar_rdf, get_slice_rdf and spatial_correlation is the number of ordered pairs of different particles, the first one selected, that satisfy the condition of the function and whose distance (relative to the radii, total or in the plane) is in the bin; no array is read or written out of its bounds. spatial_correlation also gives the sum of the products of their values.", "quantifier": "all configurations, selections, numbers of bins and distances, all valid heuristics of the R* tree", "why_tests_cant": "the boxes of the index and of the query are different in each function; a pair lost at the limit of a box is a small error of a smooth curve", "anchors": ["python/colloids/particles.py: get_srdf, get_planar_rdf, get_slice_rdf, spatial_correlation"]}
{"id": "C220", "title": "In python, get_s2 is the two body entropy", "statement": "get_s2 gives for each particle minus half of the density times the integral over the volume of g ln g - g + 1; it is never positive, is zero only for a uniform distribution and does not depend on the length of the bins.", "quantifier": "all histograms, densities and lengths of bins", "why_tests_cant": "no reference value is known for real data", "anchors": ["python/colloids/particles.py: get_s2"]}
{"id": "C221", "title": "In python, get_Sq is the structure factor of a periodic cube", "statement": "Each bin of get_Sq but the first one is the mean over the wave vectors of the bin of the squared modulus of the Fourier component of the field, divided by the number of particles. It is not negative, is 1 for one particle, and changes neither if all particles move together nor if a particle is replaced by one of its periodic images; the cache of exponentials is not read out of its bounds.", "quantifier": "all positions, fields, boxes and numbers of bins", "why_tests_cant": "the invariance concerns all displacements; the cache is not checked", "anchors": ["python/colloids/periodic.py: get_Sq"]}
{"id": "C222", "title": "In python, rectangular_Sq is the structure factor of a periodic rectangular box", "statement": "The wave vectors of a bin are distinct, have lengths in the bin, are at most maxNvec and represent all directions; rectangular_Sq is their mean of the squared modulus of the Fourier component of the field, divided by the number of particles, with the same invariances as in a cube, and reads nothing out of its cache.", "quantifier": "all positions, fields, boxes and numbers of bins", "why_tests_cant": "the vectors that are used are never shown, and an average over the vectors of a plane looks like a structure factor", "anchors": ["python/colloids/periodic.py: generate_kvec_rect, rectangular_Sq"]}
{"id": "C223", "title": "In python, structure_factor and get_rdf_window weigh particles by a Hann window", "statement": "structure_factor of a non periodic box gives to the particles the weight of a Hann window, zero at the limits of the box and largest at its center; it is not negative and is 1 for one particle. get_rdf_window sums in each bin the weights of the pairs at the distance to the nearest periodic image; it does not depend on the order of the particles.", "quantifier": "all positions, fields and boxes", "why_tests_cant": "the weights are not shown; results with a displaced window are smooth as well", "anchors": ["python/colloids/particles.py: structure_factor, get_rdf_window"]}
{"id": "C224", "title": "In python, get_space_correl counts all the pairs of a periodic box", "statement": "In each bin, get_space_correl gives the number of ordered pairs of different particles whose distance to the nearest image is in the bin and the sum of the products of their values; the four rows of get_space_correl_binary are the same sums for each pair of species.", "quantifier": "all positions in the box, fields, numbers of bins and separations of species", "why_tests_cant": "the number of pairs through the faces of the box is a small part of the total, errors look like a smooth correlation", "anchors": ["python/colloids/periodic.py: get_space_correl, get_space_correl_binary"]}
{"id": "C225", "title": "In python, get_rdf and get_binary_rdf of a periodic box count the particles around each particle", "statement": "get_rdf(p, ...) gives for each bin the number of particles at this distance of particle p, get_binary_rdf the same number for each particle and each species; no array is read or written out of its bounds.", "quantifier": "all positions in the box, distances, numbers of bins and separations of species", "why_tests_cant": "arrays are not checked in compiled code; the default separation is 800 particles", "anchors": ["python/colloids/periodic.py: get_rdf, get_binary_rdf"]}
{"id": "C226", "title": "In python, get_N_ngbs of a periodic box gives the nearest neighbours", "statement": "Each row has the at most N nearest particles among those closer than maxdist times the sum of the radii, the nearest first, and is filled with -1; a number of radii that is not the number of particles is refused.", "quantifier": "all positions in the box, positive radii, numbers of neighbours and distances", "why_tests_cant": "the missing neighbours are those of the particles close to a face of the box", "anchors": ["python/colloids/periodic.py: get_N_ngbs"]}
{"id": "C227", "title": "In python, loadXbonds selects the bonds between two particles of high order", "statement": "loadXbonds gives, in the order of the file, the bonds whose two ends have a value above the threshold.", "quantifier": "all files and values", "why_tests_cant": "files with a single bond are not in a test", "anchors": ["python/colloids/periodic.py: loadXbonds"]}
{"id": "C228", "title": "In python, ngp is the non Gaussian parameter", "statement": "For each interval ngp is 3/5 of the mean fourth power of the displacements over the square of their mean square, minus 1, over all starting points or over the first av ones; it is never below -2/5; more starting points than configurations are refused.", "quantifier": "all configurations, numbers of starting points and intervals", "why_tests_cant": "the bound holds for all displacements; no reference values are known", "anchors": ["python/colloids/periodic.py: ngp"]}
{"id": "C229", "title": "In python, get_Brownian_corr sums over all the pairs of each bin of distance", "statement": "The limits of the bins go from rmin to rmax with a constant ratio; for each bin the sums and the number are over all the pairs of a particle of the selection and another particle whose distance is in the bin.", "quantifier": "all positions, displacements, selections and bins", "why_tests_cant": "a test compares with the same vectorised sums; the missing pairs change the mean little", "anchors": ["python/colloids/experiment.py: Txp.get_Brownian_corr"]}
{"id": "C230", "title": "In python, the three components of the Brownian correlation share the scalar product of the displacements", "statement": "For each pair the longitudinal component is the product of the displacements along the line of the particles, the azimuthal component the one along the horizontal normal, and the three sum to the scalar product of the displacements; MSD_twopoint gives the means of the contributions and the root mean square of their deviations, that never has a negative radicand.", "quantifier": "all pairs of positions and displacements, all lists of contributions", "why_tests_cant": "random positions are never above each other", "anchors": ["python/colloids/experiment.py: Txp.get_Brownian_corr, Txp.MSD_twopoint"]}
{"id": "C231", "title": "exportDynamics writes one row per lag, that can be read back", "statement": "The files .msd, .isf and .ngp of exportDynamics have a line of column names, then one row per lag, from 0, with the lag in units of time and the values of each set in the order of the names.", "quantifier": "all sets, names and values", "why_tests_cant": "a test that reads the values back is written with the same reader and rarely looks for the row of lag 0", "anchors": ["lib/dynamicParticles.cpp: DynamicParticles::exportDynamics"]}
{"id": "C232", "title": "In python, link_save links a whole film, and its files agree", "statement": "After link_save, the files p2tr give for each particle of each frame the trajectory of the .traj file, as the C++ library reads it, that passes by this particle; two successive particles of a trajectory are closer than 10 pixels; an empty last frame is left out.", "quantifier": "all films", "why_tests_cant": "depends on the tree, on the order of the links and on the reader of another language", "anchors": ["python/colloids/particles.py: link_save", "lib/traj.hpp: TrajIndex"]}
{"id": "C233", "title": "In python, the density of the volume followed in time counts all the particles in it", "statement": "Txp.get_Nb_density gives the number of positions of the frame that are in the smallest box along the axes that contains the positions of the trajectories, over the volume of this box.", "quantifier": "all positions and trajectories", "why_tests_cant": "the result is a plausible number, that nothing else gives", "anchors": ["python/colloids/experiment.py: Txp.get_Nb_density"]}
{"id": "C234", "title": "In python, the volume fraction is the volume of the spheres over that of the frames", "statement": "mean_V is the mean over the frames of the volume of the smallest box along the axes that contains the particles; get_VF is the volume of the spheres of all the frames over the volume of all the boxes.", "quantifier": "all films and radii", "why_tests_cant": "the result is a plausible number, that nothing else gives", "anchors": ["python/colloids/experiment.py: Experiment.mean_V, Experiment.get_VF"]}
{"id": "C235", "title": "In python, get_tau is the first time at which the scattering function has decayed", "statement": "With the file that the program dynamics writes, get_tau gives the first time at which the average self intermediate scattering function is below the threshold, and the last time if there is none.", "quantifier": "all scattering functions and thresholds", "why_tests_cant": "two programs in two languages agree on a format of file; the short films are not tested", "anchors": ["python/colloids/experiment.py: Experiment.get_tau", "lib/dynamicParticles.cpp: DynamicParticles::exportDynamics", "mains/dynamics.cpp"]}
{"id": "C236", "title": "In python, the self intermediate scattering function of a periodic box does not depend on the images", "statement": "self_isf is the mean over starts, particles and axes of the cosine of the displacement times a wave number, and does not depend on the image of the periodic box in which each particle is given.", "quantifier": "all films, numbers of starts, radii and sizes of box", "why_tests_cant": "the tests take particles that do not cross the faces of the box, or a single size of box", "anchors": ["python/colloids/periodic.py: self_isf", "python/colloids/statistics.py: timecorrel, time_correlation"]}
{"id": "C237", "title": "In python, the sub-pixel displacement leads to the extremum of a quadratic image", "statement": "On an image that is a polynomial of degree 2, local_disp and LocalDispl give the displacement from the pixel to the stationary point and the value at this point.", "quantifier": "all dimensions, pixels and polynomials of degree 2", "why_tests_cant": "a test with a spot at the center of a pixel has no displacement; the error is less than a pixel", "anchors": ["python/colloids/track.py: local_disp", "python/colloids/track.py: LocalDispl"]}
{"id": "C238", "title": "In python, elongated compares the ratio of the curvatures with the limit", "statement": "On a layer that is a polynomial of degree 2, elongated is true for saddles, for valleys, and for minima whose ratio of principal curvatures is larger than the limit.", "quantifier": "all polynomials, pixels and limits from 1", "why_tests_cant": "the ratio is never computed: the test is on the trace and the determinant of a matrix known up to a factor", "anchors": ["python/colloids/track.py: elongated"]}
{"id": "C239", "title": "In python, readTIFF16 gives the pixels of the image", "statement": "readTIFF16 gives at row y and column x the value of the pixel x, y of the image, for both orders of bytes.", "quantifier": "all sizes and contents of images", "why_tests_cant": "the images of the author are square", "anchors": ["python/colloids/track.py: readTIFF16"]}
{"id": "C240", "title": "In python, find_blob gives centers inside a pixel next to a minimum", "statement": "Each center given by find_blob has a negative value and is at most half a pixel away, on each axis, from the pixel at which its displacement was computed; this pixel is a minimum or a neighbour of one; no minimum gives two centers, and a minimum that is within half a pixel of its pixel is kept. On a polynomial of degree 2 the center is at the minimum.", "quantifier": "all dimensions, lists of minima and displacements", "why_tests_cant": "the decision depends on displacements on each axis, and on a second displacement at another pixel", "anchors": ["python/colloids/track.py: find_blob"]}
{"id": "C241", "title": "In python, save_2Dcenters merges blobs of two octaves consistently", "statement": "A blob has the same radius and the same position in the files of save_2Dcenters whether it is found in the image or in the image with doubled pixels, larger scales have larger radii that are below the one in the head, and the centers are in the box of the head.", "quantifier": "all blobs, images and sizes", "why_tests_cant": "a shift of a quarter of a pixel is not seen by eye", "anchors": ["python/colloids/track.py: save_2Dcenters"]}
{"id": "C242", "title": "In python, the files of export_structured_points contain the array", "statement": "A reader of VTK files gets the item data[z, y, x] at the point x, y, z of the file of export_structured_points, with as many points and bytes as the head says.", "quantifier": "all arrays, shapes and types", "why_tests_cant": "needs another program to read, and the order of bytes and of axes must agree with it", "anchors": ["python/colloids/vtk.py: export_structured_points, dtypes"]}
{"id": "C243", "title": "In python, the progress bar shows the progress", "statement": "The bar is always 40 wide between brackets, with the percentage to the nearest in its middle and a number of stars that is in proportion; in a loop each printed bar says how many iterations are done, and this works in any terminal.", "quantifier": "all numbers of iterations", "why_tests_cant": "rounding and the place of the text depend on all the pairs of numbers", "anchors": ["python/colloids/progressbar.py: ProgressBar"]}
{"id": "C244", "title": "cgVoro reads back the cells that voro++ prints", "statement": "VoroContainer::get_volumes gives to each particle the volume and the sorted neighbours that voro++ prints for it, in whatever order the cells are printed and whether or not the text ends with a newline, and leaves the particles that are not printed without neighbours; this holds for any text in the format asked for.", "quantifier": "all texts, numbers of particles and orders of cells", "why_tests_cant": "the loop on the state of the stream makes a turn after the last line, whose effect depends on variables of the previous turn", "anchors": ["mains/cgVoro.cpp: VoroContainer::get_volumes"]}
{"id": "C245", "title": "The .cloud files of boo and boo_flip are read back by loadBoo", "statement": "loadBoo gives, for each particle, the invariants that boo and boo_flip wrote for this particle in each of their .cloud files, and the head of each file names the columns.", "quantifier": "all lists of tensors", "why_tests_cant": "the programs have no test; a shift by one particle looks like noise", "anchors": ["mains/boo.cpp: calculateBoo", "mains/boo_flip.cpp: main", "lib/boo_data.hpp: cloud_exporter", "lib/particles.cpp: Particles::loadBoo"]}
{"id": "C246", "title": "The files of boo are beside the positions and are those that dat2vtk loads", "statement": "The files with a postfix of boo and boo_flip are in the directory of the file of positions, with the postfix before the time token and another extension, and they are the ones that dat2vtk loads.", "quantifier": "all names of files", "why_tests_cant": "names with the token in a directory, or without token, are not in the data of the author", "anchors": ["mains/boo.cpp: calculateBoo", "mains/boo_flip.cpp: main", "mains/dat2vtk.cpp: main"]}
{"id": "C247", "title": "In python, volume gives to each particle the volume of its own cell", "statement": "volume and faces give to voro++ a box that holds all the particles, whatever the rounding of the numbers, and the volume returned at place i is that of particle i whatever the order in which voro++ prints the cells; this holds for any number of particles and also if voro++ does not print some cells.", "quantifier": "all lists of positions, all monotone roundings, all orders of the lines", "why_tests_cant": "voro++ prints the cells block by block; a missing cell shifts all the following volumes without any error", "anchors": ["python/colloids/voro.py: volume, faces, saveVoroFormat"]}
{"id": "C248", "title": "In python, make_bond_network saves the short bonds and the outsides", "statement": "make_bond_network gives to voro++ a box that holds all the spheres, and saves each couple of neighbours nearer than 2.26 times the sum of their radii once, in lexicographic order, the particles at the walls and the second layer.", "quantifier": "all lists of particles and cells", "why_tests_cant": "depends on the numbering of the particles at the walls: the last particle of a file is rarely without bond", "anchors": ["python/colloids/voro.py: make_bond_network"]}
{"id": "C249", "title": "periodic_boo with a time span treats the files of the series", "statement": "With a time span n, periodic_boo treats n files that have the name of the given one with the number of the time instead of its last number, and the given file is one of them if its number is below n.", "quantifier": "all names of files and time spans", "why_tests_cant": "numbers filled with zeros or digits in the extension are not in the data of the author", "anchors": ["mains/boo.cpp: main"]}
{"id": "C250", "title": "In python, colorscale goes from blue to red through grey", "statement": "colorscale gives channels between 0 and 1 and, from the value 0 to the value 1, a color without jump from blue through the grey of lightness centre at one half to red.", "quantifier": "all values, lightnesses of the centre and of the extrema", "why_tests_cant": "continuity over the reals and the end of the scale, which an image seldom reaches exactly", "anchors": ["python/colloids/colors.py: colorscale, msh2rgb, lab2rgb"]}
{"id": "C251", "title": "In python, clusters2particles cuts the piles and finds the particles in them", "statement": "clusters2particles ends for all piles of 2D centers; when a pile is cut each of its slices is in one piece and each piece of three slices or more is treated once; no two of the particles kept in a pile overlap, a blob is dropped only because of a better one that is kept; and the position of a particle is extrapolated from the nearest slice of the pile.", "quantifier": "all piles, all cuts, all blobs", "why_tests_cant": "a list that grows while it is iterated: termination is not settled by examples", "anchors": ["python/colloids/track.py: clusters2particles"]}
{"id": "C252", "title": "In python, getRadius averages the intensity around a particle", "statement": "getNeighbourhood gives all the pixels of the image at the given distance or nearer in each dimension, and the place of the particle among them; item k of the profile made by getRadius is the mean of the pixels nearer than k+1 times the precision.", "quantifier": "all images, positions, distances and precisions", "why_tests_cant": "distances are stored with the type of the pixels: the overflow is silent and depends on the size of the neighbourhood", "anchors": ["python/colloids/lif.py: getNeighbourhood, getRadius"]}
{"id": "C253", "title": "In python, getDisplacements2D gives the displacement between successive images", "statement": "getDisplacements2D gives a displacement for each image of a series, zero for the first one; if an image is the previous one moved periodically, it is the number of lines and columns of the move, between minus and plus half the size.", "quantifier": "all series of images, all displacements, spectra with zeros included", "why_tests_cant": "the maximum of a correlation over all images, in particular those with zeros in their spectrum; square images hide the exchange of lines and columns", "anchors": ["python/colloids/lif.py: Serie.getDisplacements2D"]}
{"id": "C254", "title": "In python, load_clusters reads the piles of centers of the slices", "statement": "load_clusters reads each pile with the coordinates, height, size and intensity of the center of each of its slices, for all series of slices and all piles.", "quantifier": "all files of centers and intensities, all piles", "why_tests_cant": "slices with a single center are rare and depend on the image", "anchors": ["python/colloids/track.py: load_clusters"]}
{"id": "C255", "title": "In python, clustersize gives the number of points linked to each point", "statement": "After clustersize each point has a scalar which is the number of points that chains of bonds link to it, itself included.", "quantifier": "all sets of points and bonds", "why_tests_cant": "an equivalence closure over arbitrary graphs", "anchors": ["python/colloids/vtk.py: Polydata.clustersize"]}
{"id": "C256", "title": "In python, track_droplet finds the trajectories that end and those that start at a time step", "statement": "After a frame is added to the linker, track_droplet remembers as terminated exactly the trajectories that have a position at the time step before and none at the present one, with this position; and it proposes for their continuation at the next step all the positions whose trajectory starts at the present step.", "quantifier": "all sequences of frames added to a linker, all links, updates included", "why_tests_cant": "the trajectory that is missed is lost only if it is also the one to be continued; an image has many new trajectories", "anchors": ["python/colloids/track_droplet.py: starting_pos", "python/colloids/track_droplet.py: terminated_pos_tr"]}
{"id": "C257", "title": "In python, povray files hold the tree of the items", "statement": "A file of povray written from items has the name, arguments, options and keywords of all the items, nested as they are, each line indented by two spaces for each open block and all the blocks closed; an item appended to another one is in this one only.", "quantifier": "all trees of items, all texts that are not braces, all numbers of includes", "why_tests_cant": "arbitrary nesting; the list of options that is shared shows only with two items made without options", "anchors": ["python/colloids/povray.py: File", "python/colloids/povray.py: Item.write", "python/colloids/povray.py: Item.append"]}
{"id": "C258", "title": "In python, the scripts on images read the series of the image they are given", "statement": "track_orange, count_nuclei, spectrum and track_droplet, given an image whose name has the number after an underscore, read all the images of the series that have the same name but for the number, in order, the one that is given included.", "quantifier": "all names, all numbers of digits, all sets of files", "why_tests_cant": "names with several underscores or percent signs and series that begin at one are not those of the examples", "anchors": ["python/colloids/track_orange.py: pattern", "python/colloids/count_nuclei.py: pattern", "python/colloids/spectrum.py: pattern", "python/colloids/track_droplet.py: pattern"]}
{"id": "C259", "title": "In python, envelope finds the peaks of a correlation function", "statement": "envelope gives the indices of all the local maxima of the smoothed function, at distances above 1.5 and with positive values, and nothing else.", "quantifier": "all functions of distance, all lengths", "why_tests_cant": "peaks with equal neighbours are rare in measured data", "anchors": ["python/colloids/experiment.py: envelope"]}
{"id": "C260", "title": "In python, get_nb gives the number of particles of each frame", "statement": "get_nb gives an array with the number of particles in the file of each frame, at each call.", "quantifier": "all numbers of frames, all numbers of particles, all sequences of calls and changes of files", "why_tests_cant": "depends on the files left by previous calls", "anchors": ["python/colloids/experiment.py: Experiment.get_nb", "python/colloids/experiment.py: Experiment.mean_Nb"]}
{"id": "C261", "title": "In python, draw_cloud sorts the particles into liquid, precursors and crystals", "statement": "draw_cloud reads the order parameters of the time step of the file it is given, keeps the particles that have some, and each of them is in exactly one of the liquid, the medium range order and the crystal; each one of the crystal is either FCC or HCP.", "quantifier": "all names of files, all order parameters", "why_tests_cant": "exact values of the thresholds are rare; names with the token twice are not those of the examples", "anchors": ["python/colloids/clouds.py: draw_cloud"]}
{"id": "C262", "title": "In python, the VTK files of the images of a series are the images", "statement": "In the VTK files written by Serie.getVTK and by the script lif2vtk, the point of coordinates x, y, z is the pixel of column x, line y and slice z of the frame.", "quantifier": "all series, files and time steps", "why_tests_cant": "cubic images hide the order of the dimensions; only series of three dimensions are tried", "anchors": ["python/colloids/lif.py: Serie.getVTK", "python/colloids/lif2vtk.py"]}
{"id": "C263", "title": "In python, the intervals of ageing are accepted by the program that computes them", "statement": "The intervals of Experiment.get_intervals are in the film and in order, auto_ageing makes the program compute them with the step and average that it is given, and each has its own file.", "quantifier": "all films, steps, averages and offsets", "why_tests_cant": "the last frame is off by one only when the python and the C++ sides meet; tests of each side alone agree with themselves", "anchors": ["python/colloids/experiment.py: Experiment.get_intervals, auto_ageing, get_interval_file", "mains/ISF.cpp"]}
{"id": "C264", "title": "The commands given by python to the programs are those that the programs read", "statement": "The methods cut, link, linkboo, rdf_radius, g6, get_tau and boo of an Experiment start programs that read the files, the token, the radius, the time step and the frames of the experiment.", "quantifier": "all experiments: names, tokens, numbers of frames and offsets", "why_tests_cant": "each side is right alone; what is wrong is the order of arguments between a script and a program that tests do not start", "anchors": ["python/colloids/experiment.py: Experiment.cut, link, linkboo, rdf_radius, g6, get_tau, boo", "mains/cutter.cpp", "mains/linker.cpp", "mains/linkboo.cpp", "mains/totalRdf.cpp", "mains/boo.cpp", "mains/g6.cpp", "mains/dynamics.cpp"]}
{"id": "C265", "title": "In python, an experiment without trajectories guesses its frames and its time step from the names of its files", "statement": "Experiment finds the number of frames, the token and the number of digits of the series of files that begins by its head, and the time step from the minutes and the seconds in the head.", "quantifier": "all heads, tokens, folders and numbers of frames", "why_tests_cant": "regular expressions find the first thing that looks like what is searched; the names of the examples have nothing else", "anchors": ["python/colloids/experiment.py: Experiment.__init__"]}
{"id": "C266", "title": "In python, the mean bond order correlation is the one of the frames", "statement": "Experiment.g6 returns the average on the frames of the distance, of the correlation of bond order and of the radial distribution, from files that it computes if one is missing.", "quantifier": "all numbers of frames and of bins, all files, all values in a field", "why_tests_cant": "python trusts the header of the file, that names a correlation, and files of an earlier call, that may have another number of lines", "anchors": ["python/colloids/experiment.py: Experiment.g6, noNaN", "mains/g6.cpp: main (output)"]}
{"id": "C267", "title": "In python, the envelope of the mean correlation has all the maxima after the largest one", "statement": "Experiment.g6_envelope keeps the positive local maxima from the largest value on, all of them and nothing else.", "quantifier": "all functions of distance, all numbers of bins, all smoothed functions", "why_tests_cant": "a slice of the list of maxima by a place in the bins is a valid slice; what it loses depends on the data", "anchors": ["python/colloids/experiment.py: Experiment.g6_envelope"]}
