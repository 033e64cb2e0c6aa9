{"id": "C01", "title": "Link pose queries return the composition of the chain", "statement": "After any sequence of the C++ API calls set_joint_angles, set_base_pose, set_init_angles, clear_cache, add_new_link, get_link_pose, get_jacobian, get_com, get_com_jacobian and get_total_inertia_matrix, get_link_pose(l) returns the base pose composed with the fixed/joint transforms along the path from the root to l, evaluated at the current joint angles: the cache is never observable.", "quantifier": "all robots that are trees, all finite histories of those calls with valid arguments, all links within the depth of the traversal stack (what happens beyond it is C08), all scalar values (bit-for-bit, IEEE doubles included)", "why_tests_cant": "The cache makes the answer depend on the whole call history; tests only try a few histories on two robots.", "anchors": ["src/kinematics.cpp: KinematicModel::get_link_pose, get_link_pose_inner", "src/tinyfk.cpp: set_joint_angles, set_init_angles, clear_cache, add_new_link", "include/data_structure.hpp: SizedCache, SizedStack"]}
{"id": "C02", "title": "solve_fk without cache reuse is independent of the past", "statement": "solve_fk(..., use_cache=False) puts in row i*n_link+j of P the pose of link elink_ids[j] for configuration i, whatever stale data an earlier call left in the cache.", "quantifier": "all tree robots within the depth of the traversal stack (C08), all prior states (including arbitrarily corrupted cache contents), all batches of configurations, all lists of links and joints", "why_tests_cant": "History dependence: a test would have to enumerate every earlier call sequence.", "anchors": ["src/wrapper.cpp: solve_forward_kinematics", "python/tinyfk/__init__.py: KinematicModel.solve_fk"]}
{"id": "C03", "title": "solve_fk with a base is correct even when the cache is reused", "statement": "solve_fk with base_type != FIXED returns the same P for use_cache=True and use_cache=False, because setting the base pose drops the cache for each configuration.", "quantifier": "all tree robots, all prior cache contents, all batches", "why_tests_cant": "Depends on arbitrary previous cache contents.", "anchors": ["src/wrapper.cpp: solve_forward_kinematics, set_base_pose"]}
{"id": "C04", "title": "use_cache=True is sound only when the given joints do not move", "statement": "With a fixed base and use_cache=True, solve_fk is correct if the cache is coherent and the call leaves the angles as they are; it is not correct in general: there is a robot and a call pair for which the second call returns the pose of the first configuration.", "quantifier": "all tree robots and coherent caches; one witness for the failure", "why_tests_cant": "Soundness of the documented 'dangerous' flag is a statement about all call sequences.", "anchors": ["src/wrapper.cpp: solve_forward_kinematics", "python/tinyfk/__init__.py: solve_fk docstring"]}
{"id": "C05", "title": "solve_com_fk returns the centre of mass of each configuration", "statement": "Row i of solve_com_fk(qs) is the centre of mass at configuration i. (Believed false for a fixed base: the cache is not cleared between configurations; true for a mobile base or a single configuration on an empty cache.)", "quantifier": "all tree robots, batches, prior histories", "why_tests_cant": "The failure needs two configurations or an earlier call; the repository has no such test.", "anchors": ["src/wrapper.cpp: solve_com_forward_kinematics", "src/kinematics.cpp: get_com", "src/tinyfk.cpp: _set_joint_angles"]}
{"id": "C06", "title": "compute_total_inertia_matrix uses the configuration it is given", "statement": "compute_total_inertia_matrix(q, ids) returns the inertia at q. (Believed false after any earlier query on the model, because the cache is not cleared; true when the cache is empty.)", "quantifier": "all tree robots, all prior histories", "why_tests_cant": "Depends on all earlier calls.", "anchors": ["src/wrapper.cpp: compute_total_inertia_matrix", "src/kinematics.cpp: get_total_inertia_matrix"]}
{"id": "C07", "title": "Inter-link squared distances are correct and independent of the past", "statement": "compute_inter_link_sqdists(use_cache=False) returns in entry i*n_pair+j the squared distance between the positions of the two links of pair j at configuration i, whatever the cache held before; the value is symmetric in the pair, zero for a link with itself, and never negative over the reals.", "quantifier": "all tree robots, prior states, batches and pairs", "why_tests_cant": "History dependence and all-inputs algebra.", "anchors": ["src/wrapper.cpp: compute_inter_link_squared_dists", "python/tinyfk/__init__.py: compute_inter_link_sqdists"]}
{"id": "C08", "title": "Pose queries never leave the traversal stack", "statement": "get_link_pose(l) performs no out-of-bounds access for any link of a constructed model. (Believed false: the traversal stack is sized at construction and not extended by add_new_link, so a chain of added links overflows it; true while no link is deeper than the number of links in the URDF.)", "quantifier": "all tree robots, all sequences of add_new_link, all links", "why_tests_cant": "Needs chains longer than the robot; tests add a single link.", "anchors": ["src/kinematics.cpp: get_link_pose_inner", "include/data_structure.hpp: SizedStack::push", "src/tinyfk.cpp: add_new_link"]}
{"id": "C09", "title": "Jacobian queries on a freshly built model are memory safe", "statement": "get_jacobian(l, ids, ...) on a constructed model with valid link and joint ids performs no out-of-bounds access. (Believed false for URDFs in which no link has an <inertial> element: the relevance table is only built by add_new_link.)", "quantifier": "all tree robots, links, joint id lists", "why_tests_cant": "Both bundled URDFs have inertial elements, so tests never meet the case.", "anchors": ["src/kinematics.cpp: get_jacobian", "src/tinyfk.cpp: update_rptable", "include/tinyfk.hpp: RelevancePredicateTable"]}
{"id": "C10", "title": "Relevance table = ancestry", "statement": "After construction (with an inertial link) and after every add_new_link, joint j is marked relevant for link l if and only if j lies on the path from the root to l.", "quantifier": "all tree robots, all add_new_link histories, all pairs", "why_tests_cant": "Tests check four pairs on one robot; the claim covers the depth-first traversal on every tree.", "anchors": ["src/tinyfk.cpp: update_rptable", "include/tinyfk.hpp: RelevancePredicateTable::isRelevant"]}
{"id": "C11", "title": "Joints off the path do not move a link and have a zero Jacobian column", "statement": "If joint j is not on the path from the root to link l, changing j's angle leaves the pose of l unchanged bit for bit, and the column of j in get_jacobian(l) is zero.", "quantifier": "all tree robots, links, joints, angles", "why_tests_cant": "Universally quantified over trees and angles.", "anchors": ["src/kinematics.cpp: get_jacobian", "src/tinyfk.cpp: update_rptable"]}
{"id": "C12", "title": "Joint names and joint ids are inverse to each other", "statement": "get_joint_ids(get_joint_names()) = [0, 1, ..., n-1], names are distinct, every id returned is a valid index, and get_joint_names()[get_joint_ids([s])[0]] = s for every movable joint s; ids follow the lexicographic order of names and fixed joints get none.", "quantifier": "all URDF models accepted by the constructor", "why_tests_cant": "All name sets; tests use one robot.", "anchors": ["src/tinyfk.cpp: KinematicModel::KinematicModel, get_joint_ids", "include/tinyfk.hpp: get_joint_names"]}
{"id": "C13", "title": "Link names and link ids are inverse to each other", "statement": "get_link_ids(get_link_names()) = [0, 1, ..., n-1]; names are distinct; URDF links come first in lexicographic order; every later added link takes the next free id.", "quantifier": "all accepted URDF models, all add_new_link histories", "why_tests_cant": "All name sets and histories.", "anchors": ["src/tinyfk.cpp: KinematicModel::KinematicModel, get_link_ids, add_new_link", "include/tinyfk.hpp: get_link_names"]}
{"id": "C14", "title": "Unknown names are reported and change nothing", "statement": "get_joint_ids / get_link_ids raise invalid_argument if and only if some requested name does not exist, and leave the model unchanged; otherwise they return one id per name, in order.", "quantifier": "all models, all lists of names", "why_tests_cant": "All lists of names.", "anchors": ["src/tinyfk.cpp: get_joint_ids, get_link_ids"]}
{"id": "C15", "title": "add_new_link rejects an existing name atomically", "statement": "add_new_link raises invalid_argument if and only if the name is already used (URDF links, centre-of-mass links and earlier added links included), and then the model is unchanged.", "quantifier": "all models, histories and names", "why_tests_cant": "All histories.", "anchors": ["src/tinyfk.cpp: add_new_link"]}
{"id": "C16", "title": "add_new_link is conservative", "statement": "Adding a link keeps every existing link id, name, pose, relevance entry and Jacobian, keeps joint ids and angles and the total mass, and the new link's pose is the parent's pose composed with the given offset.", "quantifier": "all tree robots, states, parents, offsets", "why_tests_cant": "Frame condition over every observable of every state.", "anchors": ["src/tinyfk.cpp: add_new_link, update_rptable", "include/data_structure.hpp: SizedCache::extend"]}
{"id": "C17", "title": "Joint angle writes are last-write-wins and touch nothing else", "statement": "After set_joint_angles(ids, v): get_joint_angles returns, for each joint in ids, the value at its last occurrence in ids, and the old value for each joint not in ids; base pose, links and limits are untouched.", "quantifier": "all states, id lists (duplicates included), value vectors at least as long as the id list", "why_tests_cant": "All lists with duplicates.", "anchors": ["src/tinyfk.cpp: set_joint_angles, _set_joint_angles, get_joint_angles"]}
{"id": "C18", "title": "get_q after set_q returns q", "statement": "get_q(ids, bt) after set_q(ids, q, bt) returns q for distinct joint ids: exactly for FIXED; for PLANER and FLOATING over the reals when yaw (and roll) are in (-pi, pi] and sin(pitch) is inside the non-singular band.", "quantifier": "all states, distinct id lists, q of the right length, base types", "why_tests_cant": "Continuum of angles with branch cuts.", "anchors": ["python/tinyfk/__init__.py: get_q, set_q", "src/wrapper.cpp: set_base_pose, get_base_pose"]}
{"id": "C19", "title": "Base pose round trip", "statement": "set_base_pose([x,y,z,r,p,y']) then get_base_pose() returns the same six numbers over the reals when r, y' are in (-pi, pi], p in (-pi/2, pi/2) and |sin p| < 0.99999; vectors of any other length are rejected and change nothing.", "quantifier": "all six-vectors in the stated box, all vectors of wrong length", "why_tests_cant": "Continuum with branch cuts of atan2 and asin.", "anchors": ["src/wrapper.cpp: set_base_pose, get_base_pose", "urdf_parser/include/urdf_model/pose.h: setFromRPY, getRPY"]}
{"id": "C20", "title": "Quaternion from roll-pitch-yaw is Rz(yaw)Ry(pitch)Rx(roll)", "statement": "Rotating a vector with the quaternion built from (roll, pitch, yaw) multiplies it by the matrix Rz(yaw)*Ry(pitch)*Rx(roll); the quaternion has unit norm.", "quantifier": "all real roll, pitch, yaw, all vectors", "why_tests_cant": "Continuum.", "anchors": ["urdf_parser/include/urdf_model/pose.h: Rotation::setFromRPY, normalize, operator*"]}
{"id": "C21", "title": "Rotations act as proper rotations", "statement": "For every non-zero quaternion, rotating vectors preserves lengths, inner products and cross products, and composing quaternions composes the rotations; all rotations produced by pose queries on robots with unit axes and unit origins have unit norm.", "quantifier": "all non-zero quaternions, vectors, tree robots and configurations", "why_tests_cant": "Continuum and all chain lengths.", "anchors": ["urdf_parser/include/urdf_model/pose.h: Rotation::operator*, GetInverse", "urdf_parser/src/pose.cpp: pose_transform"]}
{"id": "C22", "title": "Poses form a group under composition", "statement": "pose_transform is associative on poses with non-zero rotation, the default pose is its identity and inverse() gives a two-sided inverse for unit rotations.", "quantifier": "all poses with the stated norms", "why_tests_cant": "Continuum.", "anchors": ["urdf_parser/src/pose.cpp: pose_transform", "urdf_parser/include/urdf_model/pose.h: Pose::inverse"]}
{"id": "C23", "title": "Forward kinematics = product of homogeneous matrices", "statement": "Over the reals, for a robot whose axes are unit vectors, the position and rotation returned for a link are the ones of the product of 4x4 homogeneous matrices along its chain, with revolute joints given by Rodrigues' formula and prismatic ones by translation along the axis.", "quantifier": "all tree robots with unit axes, configurations, links", "why_tests_cant": "All chain lengths and angles; an independent statement of what FK means.", "anchors": ["src/kinematics.cpp: get_link_pose_inner", "urdf_parser/include/urdf_model/joint.h: Joint::transform"]}
{"id": "C24", "title": "Rigid base motion moves every link rigidly", "statement": "Over the reals, the pose of each link with base pose B is B composed with its pose for the identity base; hence distances between links and angles do not depend on the base.", "quantifier": "all tree robots, base poses, configurations", "why_tests_cant": "Continuum.", "anchors": ["src/kinematics.cpp: get_link_pose_inner", "src/wrapper.cpp: set_base_pose"]}
{"id": "C25", "title": "The position Jacobian is the derivative of the position", "statement": "For each joint in the list, the first three rows of its column in get_jacobian(l, ids) are the derivatives of the position returned by get_link_pose(l) with respect to that joint's angle (unit axes for rotational joints).", "quantifier": "all tree robots with unit axes, configurations, links, joint lists", "why_tests_cant": "Tests compare with finite differences at one configuration.", "anchors": ["src/kinematics.cpp: get_jacobian", "urdf_parser/include/urdf_model/joint.h: Joint::transform"]}
{"id": "C26", "title": "The quaternion Jacobian is the derivative of the quaternion", "statement": "With XYZW, rows 3..6 of each joint column are the derivatives of the quaternion returned by get_link_pose (unit rotations).", "quantifier": "all tree robots with unit axes and unit rotations, configurations, links, joints", "why_tests_cant": "Continuum; the code carries a 'why minus????' comment.", "anchors": ["src/kinematics.cpp: get_jacobian, q_derivative"]}
{"id": "C27", "title": "The rpy Jacobian is the derivative of roll, pitch, yaw", "statement": "With RPY, rows 3..5 of each joint column are the derivatives of the roll, pitch and yaw reported for the link, away from the pitch singularity and from the branch cut of atan2.", "quantifier": "all tree robots, configurations off the singular set, links, joints", "why_tests_cant": "Continuum.", "anchors": ["src/kinematics.cpp: get_jacobian, rpy_derivative", "urdf_parser/include/urdf_model/pose.h: getRPY"]}
{"id": "C28", "title": "Base translation columns", "statement": "With a base, the three columns after the joints are the derivatives of the link position with respect to the base position: the identity in the position rows, zero in the rotation rows.", "quantifier": "all tree robots, states, links, rotation types", "why_tests_cant": "All states.", "anchors": ["src/kinematics.cpp: get_jacobian"]}
{"id": "C29", "title": "Base rotation columns are forward differences", "statement": "With a base, the last three columns are the forward difference quotients, with step 1e-7, of the reported link pose in base roll, pitch, yaw. (Believed false for XYZW when the base was set with an angle beyond pi: the columns then contain -2e7*q.)", "quantifier": "all tree robots, base poses, links, rotation types", "why_tests_cant": "Continuum with a double cover; the tests use one small base angle.", "anchors": ["src/kinematics.cpp: get_jacobian"]}
{"id": "C30", "title": "Centre of mass is the mass-weighted mean of the link centres", "statement": "get_com returns the sum of m_i*c_i over the sum of m_i, where c_i is the position of the <inertial> origin of link i carried by the pose of link i; with positive masses it lies in the bounding box (convex hull) of the c_i.", "quantifier": "all tree robots with inertial links, configurations", "why_tests_cant": "All robots and configurations.", "anchors": ["src/kinematics.cpp: get_com", "src/tinyfk.cpp: KinematicModel::KinematicModel (COM links)"]}
{"id": "C31", "title": "The centre-of-mass Jacobian is the derivative of the centre of mass", "statement": "Each joint column of get_com_jacobian is the derivative of get_com with respect to that joint's angle.", "quantifier": "all tree robots with unit axes and non-zero total mass, configurations, joint lists", "why_tests_cant": "Continuum.", "anchors": ["src/kinematics.cpp: get_com_jacobian, get_com"]}
{"id": "C32", "title": "Action forces shift the centre of mass as a weighted mean", "statement": "solve_com_fk with action links and forces returns (M*c + sum f_k p_k) / (M + sum f_k), with M the total mass.", "quantifier": "all robots, configurations, link lists and forces with non-zero denominators", "why_tests_cant": "Continuum.", "anchors": ["src/wrapper.cpp: solve_com_forward_kinematics"]}
{"id": "C33", "title": "Total inertia is symmetric, positive and translation independent", "statement": "get_total_inertia_matrix returns a symmetric matrix for any input; it is positive semidefinite when each link's inertia is and masses are non-negative; it does not depend on the base position and it transforms as R*I*R^T under a base rotation.", "quantifier": "all tree robots, configurations, base poses", "why_tests_cant": "Continuum; all robots.", "anchors": ["src/kinematics.cpp: get_total_inertia_matrix"]}
{"id": "C34", "title": "Total inertia is the parallel-axis sum of the URDF inertias", "statement": "The total inertia about the centre of mass equals the sum over links of the link's inertia tensor rotated to the world plus the parallel-axis term. (Believed false when an <inertial> origin has a non-zero rpy: the rotation is dropped.)", "quantifier": "all tree robots, configurations", "why_tests_cant": "Tests use a robot whose inertial frames are not rotated.", "anchors": ["src/kinematics.cpp: get_total_inertia_matrix", "src/tinyfk.cpp: KinematicModel::KinematicModel (COM links)"]}
{"id": "C35", "title": "Total mass", "statement": "total_mass is the sum of the masses of all URDF links with an <inertial> element, and no later call changes it.", "quantifier": "all accepted URDF models, all histories", "why_tests_cant": "All histories.", "anchors": ["src/tinyfk.cpp: KinematicModel::KinematicModel", "python/tinyfk/__init__.py: total_mass"]}
{"id": "C36", "title": "Distance gradients", "statement": "Each entry of the gradient returned by compute_inter_link_sqdists(with_jacobian=True) is the derivative of the squared distance with respect to that joint.", "quantifier": "all tree robots with unit axes, configurations, pairs", "why_tests_cant": "Continuum.", "anchors": ["src/wrapper.cpp: compute_inter_link_squared_dists"]}
{"id": "C37", "title": "Planar base is the floating base restricted to x, y, yaw", "statement": "solve_fk with PLANER on (joints, x, y, theta) returns the same P as FLOATING on (joints, x, y, 0, 0, 0, theta), and the J columns are those of the joints, x, y and yaw.", "quantifier": "all robots, batches, links", "why_tests_cant": "All shapes and batches.", "anchors": ["python/tinyfk/__init__.py: _modify_input_with_3dof_base, solve_fk"]}
{"id": "C38", "title": "solve_com_fk returns a planar Jacobian for a planar base", "statement": "With PLANER, the J of solve_com_fk has n_joint+3 columns like the one of solve_fk. (Believed false: it has n_joint+6.)", "quantifier": "all robots and batches", "why_tests_cant": "No test calls it.", "anchors": ["python/tinyfk/__init__.py: solve_com_fk"]}
{"id": "C39", "title": "Output shapes and layout", "statement": "solve_fk returns P of shape (n_wp*n_link, d) and J of shape (n_wp*n_link*d, n_dof) with d = 3, 6, 7 for IGNORE, RPY, XYZW; the block of configuration i and link j starts at row (i*n_link+j)*d and equals get_jacobian for that configuration; entries never overlap; J is zero when no Jacobian is requested.", "quantifier": "all robots, batch sizes, numbers of links and joints, rotation types", "why_tests_cant": "All sizes.", "anchors": ["src/wrapper.cpp: solve_forward_kinematics"]}
{"id": "C40", "title": "Batch = one by one", "statement": "Solving a batch of configurations gives row for row the results of solving each configuration in its own call, and leaves the model at the last configuration.", "quantifier": "all robots, all batches (concatenations)", "why_tests_cant": "All batch sizes.", "anchors": ["src/wrapper.cpp: solve_forward_kinematics"]}
{"id": "C41", "title": "Joint columns are independent of the selection and order of joints", "statement": "The column of a joint in get_jacobian or get_com_jacobian does not depend on which other joints are in the list or on their order; permuting the list permutes the columns.", "quantifier": "all robots, states, lists of joints", "why_tests_cant": "All lists.", "anchors": ["src/kinematics.cpp: get_jacobian"]}
{"id": "C42", "title": "Position limits", "statement": "get_joint_limits returns (None, None) for continuous joints and the URDF lower/upper for the other movable joints; every revolute or prismatic joint of an accepted URDF has limits, so the call never dereferences null.", "quantifier": "all accepted URDFs, all joint id lists", "why_tests_cant": "All URDFs.", "anchors": ["src/tinyfk.cpp: get_joint_position_limits", "python/tinyfk/__init__.py: get_joint_limits", "urdf_parser/src/joint.cpp: parseJoint"]}
{"id": "C43", "title": "Velocity and effort limits of limit-free joints", "statement": "get_joint_velocity_limits / get_joint_effort_limits are memory safe for every movable joint. (Believed false: a continuous joint without <limit> makes them dereference null.)", "quantifier": "all accepted URDFs, all joints", "why_tests_cant": "Test robots give limits for all joints.", "anchors": ["src/tinyfk.cpp: get_joint_velocity_limits, get_joint_effort_limits"]}
{"id": "C44", "title": "Pickling preserves the model", "statement": "Unpickling a pickled model built by the constructor and changed by successful add_new_link and set_q calls gives a model with the same link ids, joint ids, joint angles, base pose and poses.", "quantifier": "all accepted URDFs, all histories of successful add_new_link and set_q, reads in between", "why_tests_cant": "All histories; the order of replay differs from the order of the calls.", "anchors": ["python/tinyfk/__init__.py: __getstate__, __setstate__, add_new_link, set_q"]}
{"id": "C45", "title": "Pickling twice preserves the model", "statement": "Pickling and unpickling an unpickled model preserves it again. (Believed false: the histories are emptied on unpickling.)", "quantifier": "all models and histories", "why_tests_cant": "Needs two generations.", "anchors": ["python/tinyfk/__init__.py: __setstate__"]}
{"id": "C46", "title": "A failed call does not poison pickling", "statement": "A rejected add_new_link or set_q leaves a model that can still be pickled and unpickled. (Believed false: the call is recorded before it is checked.)", "quantifier": "all models and rejected calls", "why_tests_cant": "Needs a failing call followed by unpickling.", "anchors": ["python/tinyfk/__init__.py: add_new_link, set_q, __setstate__"]}
{"id": "C47", "title": "solve_fk results survive pickling", "statement": "Joint angles left in the model by solve_fk are preserved by pickling. (Believed false: only set_q is recorded.)", "quantifier": "all models and histories including solve_fk", "why_tests_cant": "Mixed histories.", "anchors": ["python/tinyfk/__init__.py: solve_fk, __getstate__"]}
{"id": "C48", "title": "Tree building accepts exactly the joints over existing links and one root", "statement": "parseURDF succeeds on well-formed link and joint elements iff link names and joint names are unique, there is at least one link, each joint names an existing parent and child, and exactly one link is the child of no joint; the root link is that link.", "quantifier": "all lists of link and joint elements", "why_tests_cant": "All graphs.", "anchors": ["urdf_parser/include/urdf_model/model.h: initTree, initRoot", "urdf_parser/src/model.cpp: parseURDF"]}
{"id": "C49", "title": "Accepted models are trees", "statement": "Every accepted URDF describes a tree, so construction terminates. (Believed false: a cycle of links beside the root is accepted and construction does not terminate; a link with two parent joints is accepted and gets a wrong Jacobian.)", "quantifier": "all accepted URDFs", "why_tests_cant": "Needs malformed graphs.", "anchors": ["urdf_parser/include/urdf_model/model.h: initTree, initRoot", "src/tinyfk.cpp: update_rptable"]}
{"id": "C50", "title": "Construction errors are reported", "statement": "The constructor throws for an empty string and for unsupported joint types, and for any text that is not an accepted URDF it reports an error. (Believed false: a parse failure yields a null model that is dereferenced.)", "quantifier": "all input strings", "why_tests_cant": "All inputs.", "anchors": ["src/tinyfk.cpp: KinematicModel::KinematicModel", "urdf_parser/src/model.cpp: parseURDF"]}
{"id": "C51", "title": "Reading a URDF file", "statement": "load_urdf returns the file contents followed by one newline, and the empty string for a file that cannot be opened.", "quantifier": "all file contents", "why_tests_cant": "All contents, with and without final newline.", "anchors": ["src/tinyfk.cpp: load_urdf"]}
{"id": "C52", "title": "Vector attributes", "statement": "A vector attribute is accepted iff it splits at spaces into exactly three non-empty pieces that are numbers, and gives those numbers in order; any number of extra spaces is ignored.", "quantifier": "all strings", "why_tests_cant": "All strings.", "anchors": ["urdf_parser/include/urdf_model/utils.h: split_string", "urdf_parser/include/urdf_model/pose.h: Vector3::init"]}
{"id": "C53", "title": "Bounded cache refines a partial map", "statement": "For any sequence of set/get/extend/clear within bounds, the pose cache behaves like a partial map from ids to the last value set since the last clear or extend.", "quantifier": "all operation sequences, sizes, ids", "why_tests_cant": "All histories.", "anchors": ["include/data_structure.hpp: SizedCache"]}
{"id": "C54", "title": "Bounded stack refines a list", "statement": "For any sequence of push/pop/top/reset that stays within capacity and does not pop an empty stack, the traversal stack behaves like a last-in first-out list, reset included.", "quantifier": "all operation sequences", "why_tests_cant": "All histories.", "anchors": ["include/data_structure.hpp: SizedStack"]}
{"id": "C55", "title": "Reset of angles", "statement": "set_init_angles sets every joint to zero, drops the cache and leaves the base pose; the following pose queries are those of the zero configuration.", "quantifier": "all states", "why_tests_cant": "All states.", "anchors": ["src/tinyfk.cpp: set_init_angles"]}
{"id": "C56", "title": "Exported URDF keeps joint origins", "statement": "exportURDF writes for each joint its origin so that parsing the export gives the same joint transforms. (Believed false: a dangling else attaches the origin export to the unknown-type branch.)", "quantifier": "all models", "why_tests_cant": "No test exports.", "anchors": ["urdf_parser/src/joint.cpp: exportJoint"]}
{"id": "C57", "title": "Name clash with centre-of-mass links", "statement": "A URDF in which a link named n has an <inertial> element and another link is named n_com is rejected with invalid_argument by the constructor, and every other accepted tree URDF with supported joint types is constructed successfully.", "quantifier": "all accepted tree URDFs", "why_tests_cant": "All name sets.", "anchors": ["src/tinyfk.cpp: KinematicModel::KinematicModel, add_new_link"]}
{"id": "C58", "title": "Valid call histories never crash or hang", "statement": "For every tree URDF of supported joint types and every history of API calls whose ids are in range, whose vectors have the needed length, whose links fit the traversal stack and whose Jacobian calls come after the relevance table exists, every call returns a value or raises invalid_argument and leaves the model unchanged; none reads out of bounds, dereferences null or loops for ever.", "quantifier": "all tree URDFs, all histories of valid calls", "why_tests_cant": "Memory safety over unbounded histories and models.", "anchors": ["src/tinyfk.cpp", "src/kinematics.cpp", "include/data_structure.hpp"]}
{"id": "C59", "title": "One-dimensional configurations", "statement": "A single configuration may be passed as a 1-d array or a flat list to both solve_fk and solve_com_fk. (Believed false: solve_fk raises for a flat list, solve_com_fk raises for a 1-d array.)", "quantifier": "all models, all configurations", "why_tests_cant": "Tests pass two-dimensional arrays.", "anchors": ["python/tinyfk/__init__.py: solve_fk, solve_com_fk"]}
{"id": "C60", "title": "A failed call changes nothing in the robot", "statement": "If a method of the Python class raises, joint angles, base pose, links, ids, masses and limits of the robot are as before the call.", "quantifier": "all models, all histories of calls, all failing calls", "why_tests_cant": "All failing calls after all histories.", "anchors": ["python/tinyfk/__init__.py: KinematicModel", "src/wrapper.cpp"]}
{"id": "C61", "title": "Empty batches", "statement": "solve_fk of a batch of zero configurations of the right width returns empty matrices. (Believed false with a planar or floating base: it reads element 0 of an empty vector.)", "quantifier": "all models, link lists, joint lists, rotation and base types", "why_tests_cant": "Undefined behaviour need not show in a test run.", "anchors": ["python/tinyfk/__init__.py: solve_fk", "src/wrapper.cpp: solve_forward_kinematics"]}
{"id": "C62", "title": "RPY rows are the angles of the link rotation", "statement": "With rot_type=RPY, away from the pitch singularity, the three angles of a row of P satisfy Rz(yaw) Ry(pitch) Rx(roll) = rotation of the link.", "quantifier": "all tree robots, histories, batches, links", "why_tests_cant": "Continuum of rotations with branch cuts.", "anchors": ["src/wrapper.cpp: solve_forward_kinematics, get_base_pose, set_base_pose", "urdf_parser/include/urdf_model/pose.h: getRPY"]}
{"id": "C63", "title": "solve_fk's Jacobian is the derivative of solve_fk's poses", "statement": "In the result (P, J) of solve_fk(with_jacobian=True), the entry of J for a pose row and a joint column (or a column of the base position) is the derivative of that entry of P with respect to that entry of the configuration.", "quantifier": "all tree robots with unit axes, histories, batches, joint lists (columns of joints that are not listed again further on), base types, rotation types (RPY away from the singularity and the jumps at pi)", "why_tests_cant": "Continuum; finite differences only check sampled configurations to a tolerance.", "anchors": ["python/tinyfk/__init__.py: solve_fk", "src/wrapper.cpp: solve_forward_kinematics", "src/kinematics.cpp: get_jacobian"]}
{"id": "C64", "title": "Which URDF documents are accepted", "statement": "A document is accepted iff its first robot element has a name, its version attribute is absent or reads as 1.0, material names are distinct, every joint element is well formed (name, known type, numeric attributes, limits where required), link and joint names are distinct, every joint connects existing links, and exactly one link is no joint's child.", "quantifier": "all XML documents (element trees), all number readers", "why_tests_cant": "All documents.", "anchors": ["urdf_parser/src/model.cpp: parseURDF", "urdf_parser/src/joint.cpp: parseJoint"]}
{"id": "C65", "title": "The model says what the document says", "statement": "The links and joints of the model of an accepted document with well-formed links are those its link and joint elements describe: names, parents, types, axes, origins, limits, inertials.", "quantifier": "all accepted documents", "why_tests_cant": "All documents.", "anchors": ["urdf_parser/src/model.cpp: parseURDF", "urdf_parser/src/joint.cpp: parseJoint", "urdf_parser/src/link.cpp: parseLink", "urdf_parser/src/pose.cpp: parsePose"]}
{"id": "C66", "title": "Only version 1.0 is accepted", "statement": "A document with a version attribute is accepted only if the version is 1.0. (Believed false: trailing dots, signs, spaces and values that wrap modulo 2^32 are accepted.)", "quantifier": "all version strings", "why_tests_cant": "All strings.", "anchors": ["urdf_parser/include/urdf_parser/urdf_parser.h: URDFVersion"]}
{"id": "C67", "title": "Visual elements do not influence the kinematics", "statement": "Documents that agree on names, materials' names, inertials and the kinematic part of joints give the same model, whatever visuals, collisions, colours, mimic, safety, calibration and dynamics elements say (if these are well formed).", "quantifier": "all pairs of documents", "why_tests_cant": "Pairs of documents.", "anchors": ["urdf_parser/src/model.cpp: parseURDF"]}
{"id": "C68", "title": "The order of elements does not matter", "statement": "Reordering the elements inside robot gives the same model or the same rejection.", "quantifier": "all documents, all permutations", "why_tests_cant": "All permutations.", "anchors": ["urdf_parser/src/model.cpp: parseURDF"]}
{"id": "C69", "title": "A malformed link element is rejected", "statement": "A document with a malformed inertial or visual element is not accepted. (Believed false: the result of parseLink is ignored. With a malformed inertial, the link silently gets zero inertia; with a malformed visual, it silently loses its collision elements.)", "quantifier": "all documents", "why_tests_cant": "All documents.", "anchors": ["urdf_parser/src/model.cpp: parseURDF", "urdf_parser/src/link.cpp: parseLink, parseInertial"]}
{"id": "C70", "title": "Reading any text ends", "statement": "Constructing a model from any text, valid XML or not, never loops forever while parsing, and the rows and columns that the parser computes on the way do not influence what it returns. (Believed true of every Python str, false of arbitrary bytes: text marked as UTF-8 that ends just after a byte 0xEF can make the parser run for ever.)", "quantifier": "all Python strings; all strings of bytes", "why_tests_cant": "All texts, of any length and nesting.", "anchors": ["urdf_parser/tinyxml/tinyxmlparser.cpp: TiXmlParsingData::Stamp, TiXmlDocument::Parse, TiXmlDocument::SetError, TiXmlElement::Parse, ReadValue, ReadText, TiXmlAttribute::Parse, TiXmlDeclaration::Parse", "urdf_parser/src/model.cpp: parseURDF"]}
{"id": "C71", "title": "Parsing stays inside the text", "statement": "Parsing never reads past the end of the text, whatever it contains. (Believed true of every Python str, false of arbitrary bytes: a text that ends inside a UTF-8 sequence is overrun.)", "quantifier": "all Python strings; all strings of bytes", "why_tests_cant": "All texts.", "anchors": ["urdf_parser/tinyxml/tinyxmlparser.cpp: TiXmlDocument::Parse, GetChar, ReadText", "urdf_parser/tinyxml/tinyxml.h: TiXmlBase::GetChar"]}
{"id": "C72", "title": "Well-formed XML is read as what it is", "statement": "A well-formed XML text (byte order mark, declaration, document type, comments, processing instructions, attributes in single or double quotes, entities, character references, CDATA sections, character data in any language, empty-element tags, any white space) yields exactly the element tree it describes, so different ways to write the same tree give the same robot. Character references to characters that are not ASCII are included when the document is marked as UTF-8; processing instructions and document types that contain > are not included.", "quantifier": "all well-formed texts whose names have no characters from U+F000 to U+FFFF, apart from the exceptions of C87", "why_tests_cant": "All texts and all ways to write the same tree.", "anchors": ["urdf_parser/tinyxml/tinyxmlparser.cpp: TiXmlDocument::Parse, TiXmlElement::Parse, TiXmlAttribute::Parse, GetEntity, SkipWhiteSpace"]}
{"id": "C73", "title": "A truncated file is rejected", "statement": "A robot description that was cut off after any character before the end of its root element (an interrupted write or download) is rejected; it is never loaded as a smaller robot.", "quantifier": "all well-formed documents, all cut points", "why_tests_cant": "Every crash point of the writer.", "anchors": ["urdf_parser/tinyxml/tinyxmlparser.cpp: TiXmlDocument::Parse, TiXmlElement::Parse, ReadValue", "urdf_parser/src/model.cpp: parseURDF"]}
{"id": "C74", "title": "XML that is not well-formed is rejected", "statement": "A text that is not well-formed XML is not accepted. (Believed false: anything not beginning with < after the root element is ignored, and so is a second root element. True of mismatched end tags and of repeated attributes at any depth.)", "quantifier": "all texts", "why_tests_cant": "All texts.", "anchors": ["urdf_parser/tinyxml/tinyxmlparser.cpp: TiXmlDocument::Parse, TiXmlElement::Parse"]}
{"id": "C75", "title": "Roll, pitch, yaw near the singularity", "statement": "For every orientation, also at and near pitch ±90°, the three angles returned by get_base_pose and in the RPY rows of solve_fk describe a rotation each of whose matrix entries is within 0.009 of the true one; at exactly ±90° the error is only that of the constant for π/2. Near ±90° they are not exact: roll is set to 0 and pitch to ±π/2.", "quantifier": "all orientations, all reachable models, all configurations", "why_tests_cant": "Orientations form a continuum and the singular band is hit by no random test.", "anchors": ["urdf_parser/include/urdf_model/pose.h: Rotation::getRPY", "src/wrapper.cpp: get_base_pose, solve_forward_kinematics"]}
{"id": "C76", "title": "From text to poses", "statement": "For every text that is well-formed XML and describes a tree robot of supported joint types: constructing a model from it, looking up joints and links by name and calling solve_fk returns, for every configuration and every named link, the product of the joint transforms written in the text, with unnamed joints at 0 and the base where the configuration puts it (fixed, planar or floating).", "quantifier": "all texts (all ways to write them), all robots, all sets of names, all base types and batches", "why_tests_cant": "The whole path from bytes to matrices, for all robots.", "anchors": ["python/tinyfk/__init__.py: KinematicModel", "urdf_parser/src/model.cpp: parseURDF", "src/tinyfk.cpp: KinematicModel::KinematicModel", "src/wrapper.cpp: solve_forward_kinematics"]}
{"id": "C77", "title": "Which Python calls have defined behaviour", "statement": "On a robot reached by any history of calls, a call of a Python method returns or raises an exception if its joint ids, link ids, parent id and configuration lengths are within the bounds listed in a small table, and otherwise is undefined behaviour (a read or write outside an array). In particular a history of calls that are each within bounds runs to its end, whatever raises on the way.", "quantifier": "all robots, all histories, all Python calls with all arguments", "why_tests_cant": "Which ids are dangerous depends on the robot and on the history; tests of a bad id can pass by luck.", "anchors": ["python/tinyfk/__init__.py: KinematicModel", "src/wrapper.cpp", "src/tinyfk.cpp: KinematicModel::set_joint_angles", "src/kinematics.cpp"]}
{"id": "C78", "title": "Turning axes of any length", "statement": "For a revolute or continuous joint whose <axis> has length r, not 0, the poses returned at joint angle t are those of the robot with the axis scaled to length 1 and the joint turned by the angle f with tan(f/2) = r*tan(t/2), in the same quadrant; and the position rows of a Jacobian column, divided by cos^2(t/2) + r^2*sin^2(t/2), are the derivatives of the position. (So for r different from 1 the Jacobian is not the derivative, except at t = 0 modulo 2*pi, and the joint does not turn by t.)", "quantifier": "all robots with non-zero turning axes, all histories, links, joints and angles", "why_tests_cant": "An axis such as '0 0 2' is accepted silently; tests use unit axes.", "anchors": ["urdf_parser/include/urdf_model/joint.h: Joint::transform", "urdf_parser/src/joint.cpp: parseJoint", "src/kinematics.cpp: KinematicModel::get_jacobian"]}
{"id": "C79", "title": "Construction ends exactly when it should", "statement": "On every accepted description, tree or not, the constructor does one of three things. It returns a model iff all joint types are supported, no centre-of-mass name is taken, and, if the child of some movable joint leads to a cycle of links, no link has an inertial element. It never returns iff all joint types are supported, the child of some movable joint leads to a cycle, and the centre-of-mass name of the first link with an inertial (by name) is free. In all other cases it throws invalid_argument. It never has undefined behaviour.", "quantifier": "all accepted lists of link and joint elements, with any number of cycles and of joints with the same child", "why_tests_cant": "the set of link graphs is infinite, and a test cannot observe that a call never returns", "anchors": ["src/tinyfk.cpp: KinematicModel::KinematicModel, update_rptable, add_new_link", "urdf_parser/include/urdf_model/model.h: initTree, initRoot"]}
{"id": "C80", "title": "How far the base rotation columns are from the derivative", "statement": "After any history, when the base is away from the singularity of roll-pitch-yaw, the columns of get_jacobian for base roll, pitch and yaw (in the angles get_base_pose reports) have position rows within 5e-8 times the distance of the link from the base of the true derivative of the link position, and quaternion rows within 1.25e-8 of the true derivative when the base was set with angles in the usual box.", "quantifier": "all robots, histories, joint angles, base poses away from the singularity, and links", "why_tests_cant": "the bound holds for a continuum of poses; a test compares finitely many poses with another finite difference, which has the same error", "anchors": ["src/kinematics.cpp: KinematicModel::get_jacobian", "src/wrapper.cpp: set_base_pose, get_base_pose", "urdf_parser/include/urdf_model/pose.h: getRPY, setFromRPY"]}
{"id": "C81", "title": "Base angle columns of solve_fk are derivatives of the returned positions", "statement": "solve_fk with a planar or floating base and with_jacobian=True returns, in the columns of the base angles, the derivatives of the returned positions with respect to those entries of the configuration, up to 5e-8 times the distance of the link from the base (away from the singularity of roll-pitch-yaw).", "quantifier": "all robots, histories, cache contents, batches of configurations, links and base angles", "why_tests_cant": "the claim fails only for some configurations (pitch beyond a right angle), which tests that sample small angles do not visit", "anchors": ["src/kinematics.cpp: KinematicModel::get_jacobian", "src/wrapper.cpp: _set_joint_angles, solve_forward_kinematics", "python/tinyfk/__init__.py: solve_fk"]}
{"id": "C82", "title": "Squared distances and their gradients do not see the base", "statement": "compute_inter_link_sqdists with a planar or floating base returns distances that do not depend on the base entries of the configuration. The gradient entries for the base position are 0, and those for base angles (away from the singularity) are between -1e-7 times the squared distance and 0.", "quantifier": "all robots, histories, configurations, link pairs and joint lists", "why_tests_cant": "an identity over all base poses of a rigid robot", "anchors": ["src/wrapper.cpp: compute_inter_link_squared_dists", "src/kinematics.cpp: KinematicModel::get_jacobian", "python/tinyfk/__init__.py: compute_inter_link_sqdists"]}
{"id": "C83", "title": "Base columns of the centre-of-mass Jacobian", "statement": "After any history, if the total mass is not 0, the columns of get_com_jacobian for the base position are the identity, which is the derivative of get_com. The columns for base roll, pitch and yaw are within 5e-8 times the distance of the centre of mass from the base of the derivative of get_com, when the base is away from the singularity.", "quantifier": "all robots with total mass not 0, histories, joint lists and base poses", "why_tests_cant": "the derivative is a limit over base poses, and the claim ranges over all masses and robots", "anchors": ["src/kinematics.cpp: KinematicModel::get_com_jacobian, get_com, get_jacobian"]}
{"id": "C84", "title": "Which numbers are read", "statement": "A number in a robot description is accepted iff its text (up to a NUL) is white space followed by a decimal number: optional sign, digits with an optional point (at least one digit), optional exponent with at least one digit, and nothing after that. The value is the decimal number, rounded to a double; a number too large for a double is rejected. In particular a trailing space, nan, inf, hexadecimal numbers and decimal commas are rejected.", "quantifier": "all strings", "why_tests_cant": "infinitely many strings; the reader of the C++ library has its own state machine", "anchors": ["urdf_parser/include/urdf_model/utils.h: strToDouble", "urdf_parser/include/urdf_model/pose.h: strToDouble"]}
{"id": "C85", "title": "A joint that is listed more than once", "statement": "When the list of joints of a call names a joint more than once, only the last entry for it in a configuration counts: solve_fk, solve_com_fk, compute_inter_link_sqdists and compute_total_inertia_matrix on configurations that differ only in the overridden entries have the same outcome, results and final state, and set_q leaves the robot in the same state. The Jacobian columns of all listings of the joint are nevertheless the same numbers, the derivative by its angle; so the column of an overridden entry is in general not the derivative of the results by that entry, which is zero.", "quantifier": "all scalar types, models, histories, joint lists, batches, base types and options", "why_tests_cant": "duplicates can occur anywhere in a list of any length, for any robot and state", "anchors": ["src/tinyfk.cpp: _set_joint_angles", "src/wrapper.cpp: solve_forward_kinematics", "python/tinyfk/__init__.py: solve_fk, solve_com_fk, compute_inter_link_sqdists, set_q"]}
{"id": "C86", "title": "The Jacobian of solve_com_fk is a derivative", "statement": "Each joint entry of the Jacobian returned by solve_com_fk (with a base, or of one configuration after clear_cache with a fixed base) is the derivative of the centre of mass the call returns, action forces included, with respect to that entry of the configuration.", "quantifier": "all robots with unit axes, histories, batches, action links and forces; exact real arithmetic", "why_tests_cant": "a derivative is a limit over infinitely many calls", "anchors": ["src/wrapper.cpp: solve_com_forward_kinematics", "src/kinematics.cpp: get_com_jacobian", "python/tinyfk/__init__.py: solve_com_fk"]}
{"id": "C87", "title": "Every XML document is read as what it says", "statement": "Every well-formed XML document is read as the element tree it describes, without exceptions for how it is written. (Believed false: in a document that is not marked as UTF-8, a reference such as &#233; is read as one byte, the number modulo 256, instead of the character; a processing instruction or document type before the root element that contains > makes the document a rejected one.)", "quantifier": "all well-formed documents whose names have no characters from U+F000 to U+FFFF", "why_tests_cant": "all texts and all ways to write the same tree", "anchors": ["urdf_parser/tinyxml/tinyxmlparser.cpp: GetEntity, ConvertUTF32ToUTF8, TiXmlUnknown::Parse, TiXmlDocument::Parse, Identify"]}
{"id": "C88", "title": "Pickling preserves the model whatever the caller does with its own arrays", "statement": "A model that was built by the constructor and changed by set_q and add_new_link calls that returned is the same after pickle.loads(pickle.dumps(model)), whatever the program did with the lists and arrays it passed to these calls. (Believed false: the model keeps references to the arguments, so an array that is overwritten after set_q changes what is pickled, not the model.)", "quantifier": "all Python programs with any number of models, arrays and in-place changes of them", "why_tests_cant": "all histories, all ways in which arguments are shared and changed", "anchors": ["python/tinyfk/__init__.py: KinematicModel.set_q, KinematicModel.add_new_link, KinematicModel.__getstate__, KinematicModel.__setstate__"]}
{"id": "C89", "title": "copy.copy of a model leaves the original usable", "statement": "copy.copy(model) gives a model with the same robot and leaves the original as it is: whatever could be done with the original before (pickle it, copy it again) can be done after it. (Believed false: the copy replays the calls into history lists it shares with the original; after an add_new_link the original can then neither be pickled nor copied.)", "quantifier": "all Python programs with any number of models and arrays", "why_tests_cant": "all histories before and after the copy", "anchors": ["python/tinyfk/__init__.py: KinematicModel.__getstate__, KinematicModel.__setstate__, KinematicModel.add_new_link, KinematicModel.set_q"]}
{"id": "C90", "title": "Threads that share a model: every call but set_q and get_q with a base is atomic", "statement": "Any number of Python threads use one model at the same time. Every method call other than set_q and get_q with a planar or floating base has a result and an effect as if it had been made alone at one moment between its begin and its end; all calls together have the results and leave the robot as if they had been made one after the other in some order that keeps the order of each thread. In particular solve_fk(use_cache=False) returns the poses of the described robot in every interleaving.", "quantifier": "all models, all programs of all threads, all interleavings of their steps (a step is a call into the extension module, during which the interpreter lock is held, or an append to a history list)", "why_tests_cant": "all schedules of any number of threads", "anchors": ["python/tinyfk/__init__.py: KinematicModel.solve_fk, KinematicModel.set_q, KinematicModel.get_q, KinematicModel.add_new_link", "src/wrapper.cpp: KinematicsModelPyWrapper, PYBIND11_MODULE"]}
{"id": "C91", "title": "Threads that share a model: set_q and get_q with a base, and pickling", "statement": "Any number of Python threads use one model. set_q and get_q with a planar or floating base are atomic too, and a pickle made when no call is running restores the robot as it is. (Believed false: set_q and get_q with a base make two calls into the extension module, so another thread can see or leave the joints of one configuration with the base of another; set_q records its arguments before it applies them, so two calls can be recorded in one order and applied in the other.)", "quantifier": "all models, all programs of all threads, all interleavings of their steps", "why_tests_cant": "all schedules of any number of threads", "anchors": ["python/tinyfk/__init__.py: KinematicModel.set_q, KinematicModel.get_q, KinematicModel.__getstate__"]}
{"id": "C92", "title": "After import tinyfk has returned, the robot descriptions it downloads are complete", "statement": "Processes of one user import the package, one or many at the same time, and any of them may be stopped, or lose its connection, at any point. When an import has returned, pr2_urdfpath() and fetch_urdfpath() are complete files. (Believed false: only the existence of the directory is tested, and it is made before the download.)", "quantifier": "all numbers of processes, all interleavings of their steps, all points at which each may be stopped or fail, all contents of the two files", "why_tests_cant": "all crash points and all schedules", "anchors": ["python/tinyfk/__init__.py: _cache_dir, pr2_urdfpath, fetch_urdfpath"]}
{"id": "C93", "title": "The arguments of KinematicModel: a path or a text, and the same model from both", "statement": "KinematicModel(urdfpath=p) makes the same model as KinematicModel(xml_text=t) when t is the text of the file p; a file that cannot be read raises what reading raises; both arguments, neither, and an empty text raise an exception.", "quantifier": "all texts, all paths, all that reading a file can do", "why_tests_cant": "all texts and files", "anchors": ["python/tinyfk/__init__.py: KinematicModel"]}
{"id": "C94", "title": "Rounding errors of solve_fk grow at most linearly with the number of joints", "statement": "When every operation on double rounds, and the numbers of the description, of the base and of added links are themselves rounded, the positions and quaternions that solve_fk(use_cache=False) returns are close to those of the exactly described robot: for a link behind d joints at path length L the position is off by at most a constant times (d+1) times the accuracy times L, and the quaternion by a constant times (d+1) times the accuracy; errors do not grow exponentially although quaternions are never normalised on the way and every rotation divides by a rounded square length.", "quantifier": "all robots, all pasts of Python calls, all batches, all joint angles up to A, all base types, all arithmetics that round each operation to a relative accuracy u (below `tiny` to an absolute one), all lengths and numbers of joints for which neither overflow nor underflow is in reach", "why_tests_cant": "all robots, all configurations and all roundings", "anchors": ["urdf_parser/include/urdf_model/pose.h: Rotation, Pose", "urdf_parser/src/pose.cpp: pose_transform", "src/kinematics.cpp: KinematicModel::get_link_pose_inner", "src/wrapper.cpp: solve_forward_kinematics"]}
{"id": "C95", "title": "C++: set_joint_angle changes the pose", "statement": "After set_joint_angle(joint_id, angle) of the C++ class (the Python class does not export it), get_link_pose returns the pose at the new angle, as after set_joint_angles.", "quantifier": "all robots, all histories of C++ calls, all joint ids, all angles, all links", "why_tests_cant": "depends on what was asked before the write: every history is a different test", "anchors": ["include/tinyfk.hpp: set_joint_angle, clear_cache", "src/kinematics.cpp: KinematicModel::get_link_pose"]}
{"id": "C96", "title": "The robots shipped in data/ are read as what they say", "statement": "KinematicModel(text) for the files data/kuka.urdf, data/fetch.urdf and data/pr2.urdf succeeds; the links and joints are those written in the file, number by number; and for these robots every call returns what the other properties promise: poses along the chain, Jacobians that are derivatives, the true inertia matrix, the position limits of the file.", "quantifier": "the three files; all joint values, all sequences of calls, all named joints and links, every rounding of decimal numbers to doubles", "why_tests_cant": "the tests compare a handful of poses of one robot with recorded values; they do not range over configurations or call histories", "anchors": ["data/kuka.urdf", "data/fetch.urdf", "data/pr2.urdf", "urdf_parser/src/model.cpp: parseURDF", "src/tinyfk.cpp: KinematicModel::KinematicModel"]}
{"id": "C97", "title": "Accuracy for the shipped robots: from the bytes of the file to the array", "statement": "Read data/kuka.urdf, data/fetch.urdf or data/pr2.urdf with KinematicModel and call solve_fk with a fixed, planar or floating base and joint values and base coordinates of at most 10 rad or 10 m: in double arithmetic, with every decimal number rounded on reading and every operation rounded, each returned position is within one micrometre of the position in the robot the file describes, and each quaternion within 1e-8.", "quantifier": "the three files; all joint values and base coordinates up to 10, all named joints and links; all arithmetics at least as accurate as binary64", "why_tests_cant": "tests compare with the output of another program at a few configurations to a tolerance; the claim is about every configuration and the exact geometry", "anchors": ["data/kuka.urdf", "data/fetch.urdf", "data/pr2.urdf", "python/tinyfk/__init__.py: KinematicModel.solve_fk", "src/kinematics.cpp: KinematicModel::get_link_pose", "urdf_parser/include/urdf_model/pose.h: Rotation"]}
{"id": "C98", "title": "Shapes, materials and unused joint elements are what the document says", "statement": "For every accepted description, the C++ model's links carry the visuals and collisions of their elements in document order (shape, origin, name), each visual the material its name stands for, and the joints carry dynamics, safety limits, calibration and mimic as written.", "quantifier": "all accepted documents, all number readers", "why_tests_cant": "ranges over all documents: any number of links, visuals and materials, in any order, with any of them malformed", "anchors": ["urdf_parser/src/link.cpp: parseMaterial, parseGeometry, parseVisual, parseCollision, parseLink", "urdf_parser/src/model.cpp: assignMaterial, parseURDF", "urdf_parser/src/joint.cpp: parseJointDynamics, parseJointSafety, parseJointCalibration, parseJointMimic", "urdf_parser/include/urdf_model/color.h: Color::init"]}
{"id": "C99", "title": "Exporting keeps everything but the kinematics' origins", "statement": "Exporting an accepted description and reading the result back gives the same materials, links, visuals, collisions and joints up to the rounding of numbers (joint origins apart, C56).", "quantifier": "all accepted documents, all number printers and readers that fit", "why_tests_cant": "ranges over all documents", "anchors": ["urdf_parser/src/link.cpp: exportMaterial, exportGeometry, exportVisual, exportCollision, exportLink", "urdf_parser/src/joint.cpp: exportJoint, exportJointCalibration, exportJointMimic", "urdf_parser/src/model.cpp: exportURDF"]}
{"id": "C100", "title": "A robot description that is saved is loaded again as the same", "statement": "An element tree that the library writes, to a file or with its printer and any indentation and line breaks, is read back by the library as the same tree, whatever texts the attribute values are; so exporting a robot, saving the document and loading the file gives what reading the exported elements gives.", "quantifier": "all element trees, all attribute values, all indentations and line breaks; all robots that can be exported", "why_tests_cant": "ranges over all trees and all texts in attribute values: quotes, markup characters, control characters, letters beyond ASCII", "anchors": ["urdf_parser/tinyxml/tinyxml.cpp: TiXmlBase::EncodeString, TiXmlAttribute::Print, TiXmlElement::Print, TiXmlDocument::Print, TiXmlDocument::SaveFile, TiXmlPrinter", "urdf_parser/tinyxml/tinyxmlparser.cpp: TiXmlDocument::Parse", "urdf_parser/src/model.cpp: exportURDF", "src/tinyfk.cpp: load_urdf"]}
{"id": "C101", "title": "Jacobian columns are accurate to rounding error", "statement": "Computed in double arithmetic, the Jacobian of a link with respect to the joints (get_jacobian, and J of solve_fk) is close to the true derivative: for a link behind d joints and at path length L, with angles up to A and relative accuracy e of the stored numbers, the position rows of a turning joint are within 3000(d+1)eA(L+(d+1)mu) of the derivative of the exact position, those of a sliding joint within 500(d+1)eA times the length of its axis (plus mu), and the quaternion rows within 500(d+1)eA of the derivative of the exact quaternion. Columns of joints that do not carry the link are exactly zero.", "quantifier": "all robots, histories of calls, configurations, links and joint lists; all arithmetics that round each operation to relative accuracy u (binary64 is one)", "why_tests_cant": "tests compare a few Jacobians with finite differences to five digits; they cannot bound the error for every robot and configuration", "anchors": ["src/kinematics.cpp: get_jacobian", "urdf_parser/include/urdf_model/pose.h: Rotation", "python/tinyfk/__init__.py: solve_fk"]}
{"id": "C102", "title": "Which configuration a query answers for when angles are written and the cache is kept", "statement": "In the C++ class, set_joint_angle and _set_joint_angles write angles and keep the cache. After any history of calls, with these among them, every answer of get_link_pose, get_jacobian, get_com, get_com_jacobian and get_total_inertia_matrix is that of one configuration of the robot, the same for all queries: each joint has the value it had when, for the first time since the cache was last cleared, a pose was asked for that depends on it (a pose or Jacobian of a link below the joint; centre of mass and inertia ask for the poses of all links with inertial data), and its present value if no such pose was asked for.", "quantifier": "all tree robots with supported joints; all histories of calls of the C++ class, in any order and number, some of which may throw; all links and joint lists; for all queries but a pose, no link deeper than the description is long (C08)", "why_tests_cant": "which joints are stale depends on the order of writes, queries and cache clears in the whole history and on the tree; a test fixes one history", "anchors": ["include/tinyfk.hpp: set_joint_angle", "src/tinyfk.cpp: set_joint_angles, _set_joint_angles, clear_cache", "src/kinematics.cpp: get_link_pose, get_jacobian, get_com, get_com_jacobian, get_total_inertia_matrix", "include/data_structure.hpp: SizedCache"]}
{"id": "C103", "title": "Which configuration each row of a Python call answers for when the cache is kept", "statement": "solve_fk and compute_inter_link_sqdists with a fixed base and use_cache=True, solve_com_fk with a fixed base, and compute_total_inertia_matrix write the joint angles of a row and keep the cache. After any history of Python calls, each row they return, poses, Jacobians, centres of mass, distances, gradients or inertia, is that of one configuration of the robot: each joint has the value it had when, for the first time since the cache was last cleared, a pose was asked for that depends on it, by an earlier call or an earlier row of the same call, and the value of the row (or, for a joint that is not in the list, its present value) if no such pose was asked for. The calls return, with the shapes of C39 and C40.", "quantifier": "all tree robots with supported joints and no link deeper than the description is long (C08); all histories of Python calls, some of which may raise; all batches of rows of the right width; all lists of links, pairs, action links and joints; for Jacobians, a robot with inertial data or an added link (C09)", "why_tests_cant": "which joints of which row are stale depends on the order of rows, links and cache clears in the whole history and on the tree; a test fixes one history and one batch", "anchors": ["python/tinyfk/__init__.py: solve_fk, solve_com_fk, compute_total_inertia_matrix, compute_inter_link_sqdists", "src/wrapper.cpp: solve_forward_kinematics, solve_com_forward_kinematics, compute_total_inertia_matrix, compute_inter_link_squared_dists", "src/tinyfk.cpp: _set_joint_angles, clear_cache", "src/kinematics.cpp: get_link_pose, get_jacobian, get_com, get_com_jacobian, get_total_inertia_matrix"]}
{"id": "C104", "title": "Squared distances are accurate to rounding error", "statement": "Computed in double arithmetic, the value of compute_inter_link_sqdists for two links (with use_cache=False or a base) is close to the square of their true distance r: if E is the sum of the bounds of C94 on the errors of the two positions, the value is within 4E(r+E+mu)+8e*tiny of r^2. In particular the error of a small distance stays in proportion to the distance plus the position error, it does not grow with the square of the distance from the origin.", "quantifier": "all robots, histories of calls, batches of configurations, pairs of links and contents of the cache; all arithmetics that round each operation to relative accuracy u (binary64 is one)", "why_tests_cant": "tests compare a few distances with a tolerance; they cannot bound the error for every robot and configuration", "anchors": ["src/wrapper.cpp: compute_inter_link_squared_dists", "python/tinyfk/__init__.py: compute_inter_link_sqdists", "src/kinematics.cpp: get_link_pose"]}
{"id": "C105", "title": "The centre of mass is accurate to rounding error", "statement": "Computed in double arithmetic, the point of get_com, and each row of C of solve_com_fk without action links (with a base, or right after clear_cache), is close to the centre of mass of the exact robot: for N bodies with masses that are not negative and not all zero, behind at most D joints and welds and at path lengths up to R, within 3 times the bound of C94 for D and R plus 25*N*e*(R+mu). There is no cancellation between bodies, whatever their masses.", "quantifier": "all robots with masses that are not negative and not all zero, and fewer than 1/(100e) links, all histories of calls and configurations; all arithmetics that round each operation to relative accuracy u (binary64 is one)", "why_tests_cant": "tests compare a few centres of mass with a tolerance; they cannot bound the error of a sum over every number of bodies and every ratio of masses", "anchors": ["src/kinematics.cpp: get_com", "src/wrapper.cpp: solve_com_forward_kinematics", "python/tinyfk/__init__.py: solve_com_fk"]}
{"id": "C106", "title": "Gradients of squared distances are accurate to rounding error", "statement": "Computed in double arithmetic, the gradient that compute_inter_link_sqdists returns with with_jacobian=True (with use_cache=False or a base) is close to the true derivative of the squared distance of the two links with respect to the joint: if r is the true distance, V the speed at which the difference of the two positions changes, E the sum of the bounds of C94 on the two positions and C the sum of the bounds of C101 on the two Jacobian columns, the entry is within 3((V+C)E+Cr)+8e*tiny of the derivative.", "quantifier": "all robots, histories of calls, batches of configurations, pairs of links, joint lists and contents of the cache; all arithmetics that round each operation to relative accuracy u (binary64 is one)", "why_tests_cant": "tests compare a few gradients with finite differences; they cannot bound the error for every robot and configuration", "anchors": ["src/wrapper.cpp: compute_inter_link_squared_dists", "python/tinyfk/__init__.py: compute_inter_link_sqdists", "src/kinematics.cpp: get_jacobian"]}
{"id": "C107", "title": "The Jacobian of the centre of mass is accurate to rounding error", "statement": "Computed in double arithmetic, the joint columns of get_com_jacobian, and of J of solve_com_fk without action links (with a base, or right after clear_cache), are close to the derivative of the centre of mass of the exact robot with respect to the joint: for N bodies with masses that are not negative and not all zero, behind at most D joints and welds and at path lengths up to R, within 3 times the bound of C101 for D and R plus 25*N*e*(S+mu), where S is the length of the axis of a sliding joint and 2R for a turning one.", "quantifier": "all robots with masses that are not negative and not all zero, and fewer than 1/(100e) links whose added links have names of their own, all histories of calls, configurations and joint lists; all arithmetics that round each operation to relative accuracy u (binary64 is one)", "why_tests_cant": "tests compare a few Jacobians with finite differences; they cannot bound the error of a sum over every number of bodies and every ratio of masses", "anchors": ["src/kinematics.cpp: get_com_jacobian", "src/wrapper.cpp: solve_com_forward_kinematics", "python/tinyfk/__init__.py: solve_com_fk"]}
{"id": "C108", "title": "Jacobian times joint velocities is the velocity of the answer", "statement": "When all entries of a configuration move at once along any differentiable motion, the returned Jacobian times the velocities of the entries is the velocity of every number solve_fk returns (positions, XYZW and RPY rows), of every squared distance of compute_inter_link_sqdists and of the centre of mass of solve_com_fk, provided the base is not turning at that moment (for the centre of mass: is at rest). When the base turns as well, the velocity of a position is still J times the velocities up to 5e-8 times the distance of the link from the base times the turning rates.", "quantifier": "all robots, histories of calls, batches of configurations, links, duplicate-free joint lists, base types, rotation types and contents of the cache; all differentiable motions through the given configuration", "why_tests_cant": "single columns against finite differences of one entry say nothing about simultaneous motion: that needs the answer to be differentiable in the whole configuration, for every robot and motion", "anchors": ["src/kinematics.cpp: get_jacobian, get_com_jacobian", "src/wrapper.cpp: solve_forward_kinematics, compute_inter_link_squared_dists, solve_com_forward_kinematics", "python/tinyfk/__init__.py: solve_fk, compute_inter_link_sqdists, solve_com_fk"]}
{"id": "C109", "title": "Full turns change nothing", "statement": "Adding any multiples of 2*pi to entries of revolute or continuous joints and to angles of the base leaves the answers alone: solve_fk returns the same positions, the same quaternions up to the sign of all four numbers, the same roll and pitch and, away from the singularity, the same yaw (next to it, up to a multiple of 2*pi); compute_inter_link_sqdists and solve_com_fk return the same numbers.", "quantifier": "all robots, histories of calls, pairs of batches that differ by full turns in any of these entries, links, joint lists, base types, rotation types and contents of the cache", "why_tests_cant": "tests sample a few angles in one range; nothing bounds the number of turns, of joints that turn at once, or the robot", "anchors": ["src/kinematics.cpp: get_link_pose", "urdf_parser/include/urdf_model/pose.h: setFromRPY, getRPY", "src/wrapper.cpp: solve_forward_kinematics, compute_inter_link_squared_dists, solve_com_forward_kinematics", "python/tinyfk/__init__.py: solve_fk, compute_inter_link_sqdists, solve_com_fk"]}
{"id": "C110", "title": "A change of configuration moves the answers by no more than it allows", "statement": "For any two configurations, in one batch or in two: if the turning joints on the way from the root to a link turn by tau in all, the sliding joints on it slide by sigma in all, the way is L long, and the base moves by rho and its angles by beta in all, then the positions solve_fk returns for the link are at most rho+(beta+tau)*L+sigma apart and the quaternions at most (beta+tau)/2. The distance of two links (the root of what compute_inter_link_sqdists returns) changes by at most the sum of their two bounds, and the centre of mass by at most the largest bound of a body.", "quantifier": "all robots, histories of calls, pairs of configurations however far apart, links, joint lists, base types and contents of the cache", "why_tests_cant": "a test compares two nearby configurations; a bound between every two configurations of every robot is what makes collision margins and step sizes safe", "anchors": ["src/kinematics.cpp: get_link_pose, get_com", "src/wrapper.cpp: solve_forward_kinematics, compute_inter_link_squared_dists, solve_com_forward_kinematics", "python/tinyfk/__init__.py: solve_fk, compute_inter_link_sqdists, solve_com_fk"]}
{"id": "C111", "title": "Robots in which several joints lead to the same link", "statement": "A description may give several joints the same child link. For every such robot without a cycle of joints, the pose of a link is the one obtained by following, at every link, the joint with the greatest name among those leading to it; the other joints move nothing. The Jacobian of a link is the derivative of that pose with respect to every joint.", "quantifier": "all descriptions without a cycle of joints whatever the number of joints leading to a link, all histories of calls, all links, joint lists, rotation types and contents of the cache", "why_tests_cant": "tests use robots that are trees; which of several joints is followed, and that poses and Jacobians agree on it, must hold for every shape of the graph and every order of names", "anchors": ["urdf_parser/include/urdf_model/model.h: initTree", "src/tinyfk.cpp: KinematicModel", "src/kinematics.cpp: get_link_pose, get_jacobian", "include/tinyfk.hpp: RelevancePredicateTable"]}
{"id": "C112", "title": "Accuracy of Jacobians, centres of mass and distances for the shipped robots", "statement": "Read data/kuka.urdf, data/fetch.urdf or data/pr2.urdf with KinematicModel, with joint values and base coordinates of at most 10 rad or 10 m, in double arithmetic with every decimal number rounded on reading and every operation rounded. In each joint column of J of solve_fk the position rows are within 1e-5 (metres per radian, or per metre) of the derivative of the position in the robot the file describes, and the quaternion rows within 1e-7. Each centre of mass of solve_com_fk is within 3e-6 m of the exact one and each joint column of its Jacobian within 2e-5 of the derivative (planar or floating base, or one configuration right after clear_cache). Each entry of compute_inter_link_sqdists is within 1e-5 (D + 1) of D^2, where D is the exact distance of the two links, and its gradient with respect to each joint within 4e-5 (D + v + 1) of the derivative of D^2, where v is the speed of the links relative to each other.", "quantifier": "the three files; all joint values and base coordinates up to 10, all named joints and links, all base types; all arithmetics at least as accurate as binary64", "why_tests_cant": "tests compare Jacobians with finite differences at a few configurations to a tolerance of 1e-4 or so; the claim is about every configuration and the exact geometry", "anchors": ["data/kuka.urdf", "data/fetch.urdf", "data/pr2.urdf", "python/tinyfk/__init__.py: KinematicModel.solve_fk, solve_com_fk, compute_inter_link_sqdists", "src/kinematics.cpp: get_jacobian, get_com, get_com_jacobian", "src/wrapper.cpp: solve_forward_kinematics, solve_com_forward_kinematics, compute_inter_link_squared_dists"]}
{"id": "C113", "title": "Moving the base carries the centre of mass and turns the Jacobians", "statement": "Set the base pose to b, query, set it to g b for a rigid motion g, query again. get_com returns g applied to the first answer. In every joint column, the position rows of get_jacobian and the three rows of get_com_jacobian are the first ones turned by the rotation of g (no translation), and the quaternion rows of get_jacobian are the first ones multiplied by the quaternion of g.", "quantifier": "all robots, histories, base poses and rigid motions, links, joint selections, rotation types, with and without base columns", "why_tests_cant": "an equality over all base poses and motions; tests fix the base or compare one pair", "anchors": ["src/kinematics.cpp: get_jacobian, get_com, get_com_jacobian", "src/tinyfk.cpp: set_base_pose", "include/tinyfk.hpp: KinematicModel::set_base_pose", "src/wrapper.cpp: get_base_pose"]}
{"id": "C114", "title": "A part of a robot moves as it does in the whole", "statement": "Cut a robot description down to some of its links and joints so that only one link r loses the joint that carries it. With the same joint values, and the base of the part at the pose get_link_pose returns for r in the whole, get_link_pose returns the same for every link of the part as in the whole, bit for bit. The columns of the part's joints in the Jacobians get_jacobian returns for a link of the part are the same as in the whole, bit for bit.", "quantifier": "all robots, parts, histories of both objects, joint values and links, in every arithmetic (in particular double precision)", "why_tests_cant": "an equality between two objects over all pairs of robot and part; tests use complete descriptions only", "anchors": ["src/kinematics.cpp: get_link_pose, get_jacobian, get_com, get_com_jacobian", "src/tinyfk.cpp: KinematicModel::KinematicModel, set_joint_angles, set_base_pose", "urdf_parser/src/joint.cpp: parseJoint", "urdf_parser/include/urdf_model/joint.h: Joint::transform"]}
{"id": "C115", "title": "Reversed joint axes and shifted zero positions", "statement": "Reverse the <axis> of some joints and negate their values: link poses and the centre of mass stay the same, and in the Jacobians of links and of the centre of mass the columns of exactly those joints change sign. Move the zero positions of joints (the new <origin> is the old one followed by the motion of the joint at value d) and subtract d from their values: poses, centre of mass and Jacobian columns all stay the same.", "quantifier": "all robots, selections of joints, offsets, histories of both objects, links, joint lists, rotation types of position and quaternion rows", "why_tests_cant": "a relation between two objects over all robots and offsets; no finite set of robots settles it", "anchors": ["src/kinematics.cpp: get_link_pose, get_jacobian, get_com, get_com_jacobian", "src/tinyfk.cpp: KinematicModel::KinematicModel, set_joint_angles, set_base_pose", "urdf_parser/src/joint.cpp: parseJoint", "urdf_parser/include/urdf_model/joint.h: Joint::transform"]}
{"id": "C116", "title": "Unit of length", "statement": "Describe a robot in another unit of length: every <origin xyz>, the values of prismatic joints, the base position and the offsets of added links multiplied by c. Then positions of links and the centre of mass are multiplied by c and rotations stay; in the Jacobians, position rows of turning joints are multiplied by c and those of prismatic joints stay, quaternion rows of turning joints stay. No constant in metres is hidden in the library.", "quantifier": "all robots, factors c (c not zero for the Jacobians), histories of both objects, links, joint lists", "why_tests_cant": "a relation over all robots and factors; a hidden absolute length would show only at some scale", "anchors": ["src/kinematics.cpp: get_link_pose, get_jacobian, get_com, get_com_jacobian", "src/tinyfk.cpp: KinematicModel::KinematicModel, set_joint_angles, set_base_pose", "urdf_parser/src/joint.cpp: parseJoint", "urdf_parser/include/urdf_model/joint.h: Joint::transform"]}
{"id": "C117", "title": "Names carry no meaning", "statement": "Rename the links and joints of a description (for example prefix every name, as for the left one of two equal arms), and the links added later. With the same joint values by renamed name and the same base pose, get_link_pose returns the same for every renamed link, bit for bit; centre of mass, total inertia, total mass and the joint columns of both Jacobians are the same.", "quantifier": "all robots, renamings of links and joints (respecting the suffix _com of the library's own links), histories of both objects, links, joint lists", "why_tests_cant": "a relation between two objects over all renamings; ids follow the alphabetical order of names, so a test sees one order only", "anchors": ["src/kinematics.cpp: get_link_pose, get_jacobian, get_com, get_com_jacobian, get_total_inertia_matrix", "src/tinyfk.cpp: KinematicModel::KinematicModel, get_joint_ids, get_link_ids, add_new_link", "include/tinyfk.hpp: link_ids_, joint_ids_"]}
{"id": "C118", "title": "Columns of the base angles stay accurate in double arithmetic", "statement": "get_jacobian computes the columns of roll, pitch and yaw of the base as differences over a step of 1e-7, which magnifies rounding errors ten million times. Computed in double arithmetic, the position rows of these columns (get_jacobian with base, and J of solve_fk with a planar or floating base) are nevertheless close to the true derivative: for a link behind d joints at path length L, relative accuracy e of the stored numbers (at least 125u) and a base whose pitch has a cosine of at least c, within (3.5e9*e/c + 2e-7)*(L + p + mu) + 4p of it, where p is the error of the position (C94). For binary64 this is three digits.", "quantifier": "all robots, histories of calls, batches of configurations, links and cache contents, all bases whose pitch has a cosine of at least c >= 1/50; all arithmetics that round each operation, sin, cos, asin and atan2 included, to relative accuracy u (binary64 is one)", "why_tests_cant": "tests compare a few base Jacobians with finite differences of the same step; they cannot bound cancellation for every robot and base", "anchors": ["src/kinematics.cpp: get_jacobian", "urdf_parser/include/urdf_model/pose.h: getRPY, setFromRPY", "src/wrapper.cpp: solve_forward_kinematics", "python/tinyfk/__init__.py: solve_fk"]}
{"id": "C119", "title": "Rotation rows of the base angle columns of solve_fk", "statement": "solve_fk with a planar or floating base, with_jacobian=True and rotations returned returns, in the rotation rows of the columns of the base angles, the change of the returned rotation with that angle: the quaternion rows are the derivative of the returned quaternion up to 1.25e-8, the roll-pitch-yaw rows are the difference quotient with step 1e-7 of the returned angles (away from the singularities).", "quantifier": "all robots, histories, cache contents, batches of configurations, links and base angles, including angles beyond pi", "why_tests_cant": "tests use base angles within (-pi, pi); which angles go wrong is a statement about all real triples", "anchors": ["src/kinematics.cpp: get_jacobian", "urdf_parser/include/urdf_model/pose.h: getRPY, setFromRPY", "src/wrapper.cpp: solve_forward_kinematics", "python/tinyfk/__init__.py: solve_fk"]}
{"id": "C120", "title": "The Jacobian predicts the effect of a finite change, with an explicit error bound", "statement": "For two configurations w and w' with the same base angles, however far apart, the position solve_fk returns for w' differs from the position it returns for w plus its Jacobian at w times (w' - w) by at most tau^2/2 * L + tau * sigma, where tau and sigma are what the joints between the root and the link turn and slide in all between w and w', and L is the length of this path at w. The same bound for the centres of the bodies bounds the error of the prediction of solve_com_fk for the centre of mass when the base stays where it is. So one step of a solver that uses the Jacobian moves the link where it should up to an error that is quadratic in the step, with a constant that can be computed from the description.", "quantifier": "all robots with unit axes, histories, batches of configurations, pairs of configurations with equal base angles, links, kinds of base and of rotation rows; for the centre of mass all nonnegative masses that are not all zero, no action forces, base at rest; no joint listed twice", "why_tests_cant": "A test compares a Jacobian with finite differences at a few small steps; the constant of the quadratic error must hold for every pair of configurations, also those far apart, and every robot.", "anchors": ["src/kinematics.cpp: get_jacobian", "src/kinematics.cpp: get_com_jacobian", "src/wrapper.cpp: solve_forward_kinematics", "src/wrapper.cpp: solve_com_forward_kinematics", "python/tinyfk/__init__.py: solve_fk", "python/tinyfk/__init__.py: solve_com_fk"]}
{"id": "C121", "title": "What a turning joint without an axis does", "statement": "A revolute or continuous joint whose <axis> element has no xyz attribute, or has xyz=\"0 0 0\", is accepted with the zero vector as its axis. Unless such a joint stands at an odd multiple of pi, all positions are those of the robot in which it is a fixed joint. The quaternion reported for a link is that of this robot multiplied by the cosine of half the angle of every such joint between the root and the link, so it is not a unit quaternion; roll and yaw read off it are right, the pitch p becomes asin(k^2 sin p) where k is the product of the cosines. At an odd multiple of pi every link behind the joint is reported at the position of the joint's child link with the zero quaternion. The Jacobian column of the joint is zero in the position rows and the quaternion rows, although the quaternion depends on the angle.", "quantifier": "all descriptions with any number of such joints, histories of calls, links, angles (real arithmetic); roll-pitch-yaw away from the poles", "why_tests_cant": "The scaling of the quaternion shows only for descriptions that no test uses and depends on the product over all such joints on the path and on all angles.", "anchors": ["urdf_parser/src/joint.cpp: parseJoint", "src/kinematics.cpp: get_link_pose", "src/kinematics.cpp: get_jacobian", "urdf_parser/include/urdf_model/pose.h: Rotation::getRPY"]}
{"id": "C122", "title": "The gradient of a squared distance predicts the effect of a finite change, with an explicit error bound", "statement": "For two configurations w and w' with the same base angles, however far apart, the squared distance compute_inter_link_sqdists returns for w' differs from the one it returns for w plus its gradient at w times (w' - w) by at most (M1 + M2)^2 + 2 d (R1 + R2). Here d is the distance of the two links at w, Mi is how far link i can move relative to the base between w and w' (the bound of C110) and Ri is the bound of C120 on the error of its predicted position. In particular a motion of the base that does not turn it contributes no error.", "quantifier": "all robots with unit axes, histories, batches, pairs of links, pairs of configurations with equal base angles, kinds of base, contents of the cache (fixed base: use_cache=False); no joint listed twice", "why_tests_cant": "A test compares a gradient with finite differences at a few small steps; the error bound must hold for every pair of configurations, also those far apart, and every robot.", "anchors": ["src/wrapper.cpp: compute_inter_link_squared_dists", "python/tinyfk/__init__.py: compute_inter_link_sqdists", "src/kinematics.cpp: get_jacobian"]}
{"id": "C123", "title": "Full turns do not change the Jacobians", "statement": "Adding any multiples of 2*pi to entries of revolute or continuous joints and to angles of the base leaves the Jacobians alone: the position rows of solve_fk are the same in all columns, those of the base included; its roll-pitch-yaw rows are the same (in the columns of base angles the yaw row away from the singularity, next to it the difference that is divided by the step 1e-7 changes by a multiple of 2*pi); its quaternion rows in the columns of joints and of the base position change sign exactly as the returned quaternion does; the gradients of compute_inter_link_sqdists and the Jacobian of solve_com_fk are the same in all columns.", "quantifier": "all robots, histories of calls, pairs of batches that differ by full turns in any of these entries, links, joint lists (with repetitions), base types, rotation types and contents of the cache", "why_tests_cant": "Any number of turns in any entries at any configuration of any robot; the base columns go through the angles that are read back from the base quaternion, whose sign a full turn flips, so the equality is not syntactic and a test sees a few configurations.", "anchors": ["src/kinematics.cpp:KinematicModel::get_jacobian", "src/kinematics.cpp:KinematicModel::get_com_jacobian", "src/kinematics.cpp:rpy_derivative", "src/kinematics.cpp:q_derivative", "python/tinyfk/__init__.py:KinematicModel.solve_fk", "python/tinyfk/__init__.py:KinematicModel.solve_com_fk", "python/tinyfk/__init__.py:KinematicModel.compute_inter_link_sqdists", "urdf_parser/include/urdf_model/pose.h:getRPY"]}
{"id": "C124", "title": "Results follow the units of length and mass", "statement": "Describe a robot in other units: every length (origins, inertial origins, values of prismatic joints, base position, offsets of added links) times c, every mass times mu, every inertia entry times mu*c^2. Then positions of links and the centre of mass are multiplied by c, rotations stay, the total mass is multiplied by mu and the total inertia by mu*c^2; in Jacobians of links and of the centre of mass the position rows of turning joints are multiplied by c and those of prismatic joints stay, whatever mu is.", "quantifier": "all robots, all c and all nonzero mu (nonzero c for the Jacobians), all histories on the two robots that leave related joint values, base poses and added links, all links and joint lists", "why_tests_cant": "Every robot at every configuration and every pair of units; a dimensional slip (a mass used twice, an offset not squared) can stay invisible on robots with unit masses.", "anchors": ["src/kinematics.cpp:KinematicModel::get_com", "src/kinematics.cpp:KinematicModel::get_total_inertia_matrix", "src/kinematics.cpp:KinematicModel::get_com_jacobian", "src/kinematics.cpp:KinematicModel::get_jacobian", "src/tinyfk.cpp:KinematicModel::KinematicModel", "urdf_parser/src/link.cpp:parseInertial"]}
{"id": "C125", "title": "Links are no farther apart than the robot is long between them", "statement": "Two links that hang on a common link are never farther apart than the two ways to it are long (lengths of the joint origins and of the offsets of added links, plus how far the sliding joints are out), for all joint angles and base poses; the same bound holds between the positions solve_fk returns for a link and for one it hangs on. Across a single joint or added link the value of compute_inter_link_sqdists is exactly the squared length of the offset, so turning a joint never changes the distance of the two links it connects.", "quantifier": "all robots, histories of calls, configurations, pairs of links, joint lists, base types and contents of the cache", "why_tests_cant": "The bound is over all configurations at once (the workspace of the robot); sampling configurations cannot establish a worst case.", "anchors": ["src/kinematics.cpp:KinematicModel::get_link_pose", "urdf_parser/include/urdf_model/joint.h:Joint::transform", "python/tinyfk/__init__.py:KinematicModel.compute_inter_link_sqdists", "python/tinyfk/__init__.py:KinematicModel.solve_fk", "urdf_parser/src/pose.cpp:pose_transform"]}
{"id": "C126", "title": "Jacobian columns are no larger than the lever arm", "statement": "In the Jacobian of solve_fk the position rows of the column of a turning joint are never longer than the way from the joint's child link to the link (so the worst speed of a link is known without a configuration); those of a sliding joint that carries the link are exactly as long as its axis. The quaternion rows of a turning joint that carries the link have length exactly 1/2; the rotation rows of a sliding joint are zero.", "quantifier": "all robots with unit turning axes, histories of calls, configurations, links, joint lists, rotation types, base types and contents of the cache", "why_tests_cant": "The bound is over all configurations at once; sampling configurations cannot establish a worst case.", "anchors": ["src/kinematics.cpp:KinematicModel::get_jacobian", "src/wrapper.cpp:get_jacobian", "python/tinyfk/__init__.py:KinematicModel.solve_fk"]}
{"id": "C127", "title": "A joint that carries both links or neither does not change their distance", "statement": "In the gradient of compute_inter_link_sqdists the entry of a joint that carries both links or neither is exactly zero, and the squared distance is the same for every value of that joint. The entry of a joint that carries one of the links is at most twice the distance times the way from the joint's child link to that link (turning joint) or times the length of the axis (sliding joint).", "quantifier": "all robots, histories of calls, configurations, pairs of links, joint lists, base types, joint values and contents of the cache", "why_tests_cant": "The claim is about every value of the joint and every configuration of the others; tests check a few.", "anchors": ["src/kinematics.cpp:KinematicModel::get_jacobian", "python/tinyfk/__init__.py:KinematicModel.compute_inter_link_sqdists", "include/tinyfk.hpp:RelevancePredicateTable"]}
{"id": "C128", "title": "A joint's centre-of-mass column is the mass share of what it carries times the velocity of its centre of mass", "statement": "In the centre-of-mass Jacobian, computed directly or returned by solve_com_fk without action forces, the column of a joint depends only on the bodies the joint carries, that is, the links with an inertial element that have the joint on their way to the root. The column is their share of the total mass times the velocity, for unit speed of the joint, of the centre of mass of those bodies alone: along the axis for a prismatic joint, the cross product of the axis and the arm from the joint for a turning one. A joint that carries no body has a zero column.", "quantifier": "every accepted robot description whose trees are shallow enough for the traversal stack, every history of calls, every list of joints, every configuration row and base type", "why_tests_cant": "The column is computed as a mean over all bodies of separate Jacobians; that it collapses to a single lever arm holds for any number of bodies and any tree shape, and tests only see some trees.", "anchors": ["src/kinematics.cpp:KinematicModel::get_com_jacobian", "src/kinematics.cpp:KinematicModel::get_jacobian", "python/tinyfk/__init__.py:KinematicModel.solve_com_fk", "include/tinyfk.hpp:RelevancePredicateTable"]}
{"id": "C129", "title": "The total inertia is a physically possible one", "statement": "When every link's inertia tensor is physically possible (tr/2*1 - I is positive semidefinite) and no mass is negative, so is the matrix of get_total_inertia_matrix; in particular no moment about an axis exceeds the sum of the other two. Its trace is the trace of the correct parallel-axis sum even when <inertial> origins are rotated, where single entries are wrong (C34). When no <inertial> origin is rotated, adding the parallel-axis term of the total mass at the centre of mass gives the inertia about any other point.", "quantifier": "all accepted robots with unit axes, all histories, all configurations and base poses, all reference points", "why_tests_cant": "Semidefiniteness of a sum of rotated tensors holds or fails at particular configurations; the trace and parallel-axis identities are equations over all poses.", "anchors": ["src/kinematics.cpp:KinematicModel::get_total_inertia_matrix", "src/kinematics.cpp:KinematicModel::get_com", "urdf_parser/src/link.cpp:parseInertial"]}
{"id": "C130", "title": "Assertions switched off", "statement": "Under python -O, which drops assert statements, a call of set_q, solve_fk or solve_com_fk that no assertion would have stopped has the same outcome. Of the calls the length assertions would have stopped, solve_fk with a planar or floating base still raises. With a fixed base, solve_fk and solve_com_fk ignore surplus numbers and read past the end of a configuration that is too short. solve_com_fk with a floating base takes the joint values from the front and the base from the back of a row of any length that has at least six numbers and one per joint, so a row with missing numbers is misread without an error; with a planar base surplus numbers put the base at (y, 0) or at the origin. set_q ignores surplus numbers between joint values and base, and reads past the end when there are too few.", "quantifier": "all objects (any state whatever), all argument arrays, joint and link lists, base types", "why_tests_cant": "The test suite runs with assertions; which of the wrongly sized inputs are then rejected, misread or undefined depends on every length and base type.", "anchors": ["python/tinyfk/__init__.py:KinematicModel.set_q", "python/tinyfk/__init__.py:KinematicModel.solve_fk", "python/tinyfk/__init__.py:KinematicModel.solve_com_fk", "python/tinyfk/__init__.py:KinematicModel._modify_input_with_3dof_base", "src/wrapper.cpp:KinematicsModelPyWrapper::solve_forward_kinematics", "src/wrapper.cpp:KinematicsModelPyWrapper::solve_com_forward_kinematics"]}
{"id": "C131", "title": "Configurations of another length for distances and inertia", "statement": "compute_inter_link_sqdists and compute_total_inertia_matrix do not reject configurations with surplus numbers. With a fixed base (and for the inertia) the call has exactly the outcome, including the state it leaves, of the call with the first numbers only. With a floating base the joint values are the first and the base the last six numbers, also when these overlap. With a planar base the joint values and the heading are read as usual, but the base is put at (y, 0) when there is one surplus number and at the origin when there are more.", "quantifier": "all objects (any state whatever), all configurations of these lengths, all joint lists, link pairs, base types and flags", "why_tests_cant": "Ranges over all lengths; a test of one wrong length says nothing about what another is read as.", "anchors": ["python/tinyfk/__init__.py:KinematicModel.compute_inter_link_sqdists", "python/tinyfk/__init__.py:KinematicModel.compute_total_inertia_matrix", "python/tinyfk/__init__.py:KinematicModel._modify_input_with_3dof_base", "src/wrapper.cpp:KinematicsModelPyWrapper::compute_inter_link_squared_dists", "src/wrapper.cpp:KinematicsModelPyWrapper::compute_total_inertia_matrix"]}
{"id": "C132", "title": "Rounding errors of the total inertia", "statement": "In arithmetic that rounds every operation, every entry of the matrix that compute_total_inertia_matrix(q, joint_ids) returns right after clear_cache is within an explicit bound of the entry that exact arithmetic gives for the exact robot at q. The bound is a small multiple of the accuracy of the poses and of the centre of mass, times what the entries of such a matrix can be at most: it grows linearly with the angles, with the total mass and with the size of the tensors, with the square of the size of the robot, and polynomially with the number of links and the depth of the tree.", "quantifier": "all robots of unit rotations and axes held to a relative accuracy eps, all histories, all configurations, every arithmetic with relative error u in each operation in which squares and sums of non-negative numbers stay non-negative, no bound on the number of links or joints", "why_tests_cant": "A test compares a few robots at a few configurations with a tolerance chosen by hand; it cannot bound the error for all robots and configurations.", "anchors": ["src/kinematics.cpp:KinematicModel::get_total_inertia_matrix", "src/kinematics.cpp:KinematicModel::get_com", "python/tinyfk/__init__.py:KinematicModel.compute_total_inertia_matrix", "src/wrapper.cpp:KinematicsModelPyWrapper::compute_total_inertia_matrix"]}
{"id": "C133", "title": "Rounding errors of the total mass", "statement": "In arithmetic that rounds every operation, total_mass of a robot of N links is within 4 N eps (M + tiny) of the sum M of the exact masses, where eps is the relative accuracy of the masses and of the operations; it does so after any calls.", "quantifier": "all robots whose masses are not negative and held to a relative accuracy eps, all histories, every arithmetic with relative error u in each addition, any number of links with 10 N eps at most 1", "why_tests_cant": "A test adds up a few robots; a bound for all masses and numbers of links needs an induction over the sum.", "anchors": ["python/tinyfk/__init__.py:KinematicModel.total_mass", "src/tinyfk.cpp:KinematicModel::KinematicModel", "include/tinyfk.hpp:total_mass_"]}
{"id": "C134", "title": "Rounding errors of the centre of mass with action forces", "statement": "Computed in double arithmetic, each number of C of solve_com_fk with n action links and forces that are not negative (with a base, or right after clear_cache) is close to the balance of the exact robot and the exact forces: for N links behind at most D joints and welds and path lengths up to R, within 6/5 of the bound of C105 plus 165*n*N*e*(R+mu), however large the forces are compared with the weight of the robot.", "quantifier": "all robots with masses that are not negative and not all zero, all histories of calls and configurations, all lists of action links and of forces that are not negative with 10000*n*N*e at most 1; all arithmetics that round each operation to relative accuracy u (binary64 is one)", "why_tests_cant": "A test compares a few forces on a few robots; forces much larger or smaller than the weight, and many of them, decide whether the quotient keeps its accuracy.", "anchors": ["python/tinyfk/__init__.py:KinematicModel.solve_com_fk", "src/wrapper.cpp:solve_com_forward_kinematics", "src/kinematics.cpp:KinematicModel::get_com"]}
{"id": "C135", "title": "Rounding errors of the Jacobian of the centre of mass with action forces", "statement": "Computed in double arithmetic, each number in a joint column of J of solve_com_fk with n action links and forces that are not negative (with a base, or right after clear_cache) is close to the derivative of the balance of the exact robot and the exact forces with respect to that joint: within 6/5 of the bound of C107 plus 165*n*N*e*(v+mu), for N links and v the speed at which the joint can move a link.", "quantifier": "all robots as in C107, all histories of calls and configurations, all lists of action links and of forces that are not negative with 10000*n*N*e at most 1; all arithmetics that round each operation to relative accuracy u (binary64 is one)", "why_tests_cant": "A test compares with finite differences, whose own error is far larger than the rounding error, on a few forces and robots.", "anchors": ["python/tinyfk/__init__.py: solve_com_fk", "src/wrapper.cpp: solve_com_forward_kinematics", "src/kinematics.cpp: get_com_jacobian, get_jacobian"]}
{"id": "C136", "title": "Rounding errors of roll, pitch and yaw", "statement": "Computed in double arithmetic, the roll, pitch and yaw that solve_fk(rot_type=RotationType.RPY, use_cache=False) returns describe nearly the rotation of the link: as long as the sine of the pitch is at most 0.9999, every entry of their rotation matrix is, for a link behind d joints, within 87500*(d+1)*e*A/cos(pitch) of that of the exact robot. In the same way get_base_pose after set_base_pose of six numbers (angles up to A) returns the same position and angles of nearly the same rotation, within 140000*u*A/|cos(pitch)|. The loss of accuracy towards the singularity is thus at most like 1/cos(pitch). For every rotation whatever, at the singularity and around the cut-off included, where the branch taken depends on rounding, the entries are within 1/100 (if the quaternion is accurate to eight digits).", "quantifier": "all robots with unit quaternions, all pasts of Python calls, all batches, links, joint angles up to A and base types; all rotations (the sharper bound: with a sine of the pitch up to 0.9999); all arithmetics that round each operation, sin, cos, asin and atan2 included, to relative accuracy u (binary64 is one)", "why_tests_cant": "A test compares some angles on some robots with a tolerance; that the error is bounded in all branches and quadrants, for every robot and close to the singularity, is a statement about all inputs.", "anchors": ["python/tinyfk/__init__.py: solve_fk", "src/wrapper.cpp: solve_forward_kinematics, get_base_pose, set_base_pose", "urdf_parser/include/urdf_model/pose.h: getRPY"]}
