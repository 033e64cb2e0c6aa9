# Formal model of tinyfk in Lean 4 — design

`properties.jsonl` has the properties in English, `MANIFEST.json` the theorems for each.
This file says what is modelled and how, how the statements are built, where the code
and a property disagree, and what has to be trusted.

## 1. What is modelled

The model follows `/repo` function by function; each Lean definition cites the
file and lines it models and says where it simplifies. All modules are under `lean/Verif/`.

| module | models |
|---|---|
| `Model/Outcome` | C++ effects: normal return, exception, undefined behaviour (`ub`) and non-termination (`hang`) are four distinct outcomes |
| `Model/Pose` | `urdf_model/pose.h`, `urdf_parser/src/pose.cpp` (vectors, quaternions, poses) |
| `Model/DataStructure` | `include/data_structure.hpp` (SizedCache, SizedStack) |
| `Model/Urdf` | `urdf_model/joint.h`, `link.h`, `model.h` (`initTree`, `initRoot`) and the tree part of `parseURDF` |
| `Model/Kin` | `include/tinyfk.hpp`, `src/tinyfk.cpp`, `src/kinematics.cpp`: constructor, ids, poses, relevance table, centre of mass, inertia, `add_new_link`, limits |
| `Model/Jacobian` | the Jacobian, centre-of-mass Jacobian and rotation derivatives of `src/kinematics.cpp` |
| `Model/Mat` | dense matrices (Eigen) as lists of rows; out-of-range access is `ub` (the build sets `EIGEN_NO_DEBUG`, `NDEBUG`) |
| `Model/Wrapper` | `src/wrapper.cpp` (`PyRobotModel`: batches, `solve_*`, squared distances) |
| `Model/Py` | `python/tinyfk/__init__.py` (`KinematicModel`: `set_q`, `get_q`, `solve_fk`, …, pickling) |
| `Model/PyHeap` | the same class with its history lists as shared, mutable objects: several models, the caller's arrays, `pickle`, `copy.copy` |
| `Model/PyThreads` | the methods of the class as sequences of steps, and any number of Python threads that share a model (a call into the extension is one step because `wrapper.cpp` never releases the interpreter lock) |
| `Model/PyNoAssert` | `set_q`, `solve_fk` and `solve_com_fk` of the Python class with assertions switched off (`python -O`) |
| `Model/PyImport` | the download at import time as steps of any number of processes that may be stopped anywhere, and the arguments of the constructor |
| `Model/Rounding` | `double` as real numbers on which every operation rounds (`Fl F`); binary64 rounding to 53 digits as a concrete `F`. Over it the same model functions are used |
| `Model/Xml` | `urdf_parser/src/{joint,link,pose,model}.cpp`, `utils.h`, `URDFVersion` on XML elements, with `split_string`, `strtol` |
| `Model/XmlStamp` | the same parser with the loop that finds rows and columns (`TiXmlParsingData::Stamp`), which need not end. C70 is about this one and shows that it agrees with `Model/XmlText` on every Python `str`; the other claims about text use `Model/XmlText` |
| `Model/XmlText` | `urdf_parser/tinyxml/tinyxmlparser.cpp`, `tinyxml.h`: `TiXmlDocument::Parse` on text, byte by byte (elements, attributes, entities, comments, CDATA, declarations, encodings) |
| `Model/Number` | `strToDouble` of `utils.h`: `operator>>` for `double` after GCC 13's `bits/locale_facets.tcc`, `strtod` on decimal text |
| `Model/Export` | the exporters of `urdf_parser/src/*.cpp` and `load_urdf` |
| `Model/Print` | writing XML text: `EncodeString`, `Print`, `SaveFile` and `TiXmlPrinter` of `urdf_parser/tinyxml/tinyxml.cpp`, for documents of elements |
| `Data/{Kuka,Fetch,Pr2}` | the files of `data/`, line by line, and a table of the links and joints of each (generated by a script; the texts are to be compared with `/repo/data`, the tables are checked against the texts by the kernel, C96). `chars "…"` (`Spec/RobotTable`) stands for the list of the characters of a string literal |
| `Model/Real` | the scalar operations at `K = ℝ` |

**Scalars.** The model is generic over a type `K` with a law-free class
`Scalar K` (the operations the code performs on `double`). Theorems about
caching, ids, layout, histories, parsing and undefined behaviour are proved for *every*
such `K`; they use no arithmetic law, so they apply to IEEE doubles bit for bit (assuming
the same operation on the same operands gives the same result). Theorems about geometry
and derivatives are proved for `K = ℝ` (exact arithmetic; rounding is treated in C94, C97, C101, C104–C107, C112, C118 and C132–C136 only); their notes
in the manifest say so.

**Pointers** to links and joints are indices in the vector of all links/joints.
`weak_ptr::lock` always succeeds because `links_` keeps all links alive.
Fixed-width `int`/`size_t` counters are unbounded `Nat` except where a wrap is
the point (`size() - 6` in `solve_forward_kinematics`, the `unsigned` of `URDFVersion`).

**Loops** are recursion; the upward pose traversal is bounded by the stack
capacity (a push past it is `ub`); the relevance depth-first search may diverge
and is a `partial_fixpoint` whose bottom is the outcome `hang`.

**Strings.** A `String` of the model is a `std::string`, one `Char` per byte; `std::map` iterates
in the order of `<` on strings.

**Numbers in XML.** In the parser, `strToDouble` is a parameter `num : String → Option K` and the
formatting of the exporter a parameter `fmt : K → String`: every theorem holds for every reader and printer
(C56 assumes that `num` reads what `fmt` wrote as `rd`). `Model/Number` has the reader of the code,
with the rounding of a decimal number to a `double` as a parameter (C84).

**Parser inside the Python model.** `RobotModel.__init__` and unpickling take the parser as a
parameter, so C44–C47 hold for every parser; `parseURDF` is one.

## 2. How properties are stated

`Spec/…` holds small specifications independent of the model's helpers: the
pose of a link as an inductive relation along parent edges (`IsPose`), path
membership (`OnPath`), weighted means, 3x3 matrices and Rodrigues rotations, the inertia sum,
API histories (`Call`, `PyCall` and the reachable states), abstract maps and lists for the containers,
and what an XML element says (`Spec/Urdf`, `Spec/Text`).
Property theorems live in `Props/…`, each followed by an `example` (or in `Spec/Example`,
`Props/DocExample`, `Props/CacheWitness`, `Props/TwoParents`) that meets its hypotheses on a concrete
robot. A theorem name starts with the property id. `_partial` marks a theorem that proves only
part of the English property, `_false` (or a name that says what goes wrong) one that proves the
negation, with a concrete witness or for every input.

Histories: `Reach ls js m0 cs m` says that the description `(ls, js)` is a tree of supported joints,
the constructor returned `m0`, and the calls `cs` — any interleaving of the public methods with any
arguments, successful or raising — lead to `m`. `PyReach` is the same for the Python class. State
properties are proved by an invariant over this relation, without bound on its length.

## 3. Findings: where the code and a property disagree

Each has a machine-checked theorem (see the manifest).

- **C04, C05, C06** `use_cache=True`, `solve_com_fk` with a fixed base and `compute_total_inertia_matrix` return values of an
  earlier configuration because the cache is not cleared.
- **C08** a link added deeper than the number of URDF links overflows the fixed-size pose stack.
- **C09** without inertial links and before `add_new_link`, the relevance table does not exist: reading it is undefined.
- **C29** the XYZW base rotation columns contain spurious entries of size 2e7 when the base was set with an angle beyond pi.
- **C34** the rotation of `<inertial><origin rpy>` is ignored by the inertia matrix.
- **C38** with a planar base the Jacobian of `solve_com_fk` has six base columns, the configuration three.
- **C43** velocity/effort limits of joints without `<limit>` dereference null.
- **C45–C47** pickling: unpickled models have empty histories (a second pickle loses everything), a rejected call is recorded
  and makes unpickling raise, solver calls that move the robot are not recorded.
- **C49** a cycle beside the root is accepted by the parser and the constructor never returns; a link with two parent joints is
  accepted and its pose uses one of them.
- **C50** a rejected URDF leads to a null dereference in the constructor, not an exception.
- **C56** `exportJoint` never writes the origin (dangling else).
- **C59, C61** flat lists / 1-d arrays and empty batches are treated inconsistently; empty batches with a moving base are undefined.
- **C66** version strings such as `4294967297.0`, `1.0.`, ` +1.-0` count as 1.0.
- **C69** the result of `parseLink` is ignored: malformed `<inertial>` elements silently give zero mass or inertia.
- **C70** the loop that finds the row and column of a position does not advance at a byte 0xEF that is not followed by two more bytes. In a text marked as UTF-8 that ends that way, such as a byte order mark followed by `<a \xEF/`, reporting the error never ends. It cannot happen with a Python `str`.
- **C71** bytes that end inside a UTF-8 sequence are read past the end when the encoding is UTF-8 (byte order mark or declaration).
- **C74** text after the root element and a second root element are silently ignored.
- **C75** within 0.26° of pitch ±90° the returned angles are those of a rotation up to 0.009 away, not of the rotation itself.
- **C77** No method checks a joint id or link id, and `compute_total_inertia_matrix` and `compute_inter_link_sqdists` do not check the length of the configuration. A bad id or a short vector reaches `operator[]` on a `std::vector` or an Eigen matrix (built with `EIGEN_NO_DEBUG`), so the call is undefined behaviour where a Python user expects an exception. `solve_fk` with an empty batch and a base is undefined behaviour too (C61).
- **C78** A `<axis>` that is not a unit vector is not normalised and not rejected. The joint then turns by `2 atan(r tan(t/2))` instead of `t`, and the Jacobian column is `cos^2(t/2) + r^2 sin^2(t/2)` times the derivative (`C78_witness`: 6 instead of 3/2). The quaternion in the output is not of unit length.
- **C79** the exact condition for the hang of C49: some movable joint leads into a cycle, and some link has an `<inertial>` (the first one without a name clash).
- **C81** solve_fk with a floating base whose pitch is beyond ±π/2 returns a pitch column with the wrong sign: the code differentiates in the angles it recomputes from the quaternion, not in those of the configuration.
- **C82** gradients of squared distances for base angles are slightly negative instead of 0.
- **C84** white space before a number is accepted, after it is not (`mass value="1.0 "` is malformed, and by C69 the link then has zero mass). Vectors are split at spaces only, so tabs between components are malformed but a line break after a space is not.
- **C85** `solve_fk(qs, links, [0, 0], with_jacobian=True)`: both columns say 1 for the example robot although the first entry of a configuration has no influence (`Example.C85_witness`).
- **C87** `<robot name="&#233;"/>` gives the name the single byte E9, not the text (`C87_reference`); `<!DOCTYPE robot [<!ELEMENT robot ANY>]>` or `<?note a->b?>` before the root element makes the whole description rejected (`C87_early_end`).
- **C88** `q = np.array([2.0]); model.set_q(ids, q); q[0] = 1.0`: the model stays at 2, `pickle.loads(pickle.dumps(model))` is at 1 (`C88_written`, `Example.C88_false`).
- **C89** `model.add_new_link(...); copy.copy(model)` doubles the history of `model`: `pickle.loads(pickle.dumps(model))`, `copy.copy(model)` and `copy.deepcopy(model)` raise from then on (`C89_copy_spoils`, `Example.C89_false`).
- **C91** Two threads that call `set_q` with a base: the joints of one and the base of the other can remain, and the model is then in a configuration nobody asked for (`C91_torn`, `Example.C91_false`); `get_q` with a base can return such a mixture (`C91_get`); after two concurrent `set_q` calls the model can be at the first and its pickle at the second configuration (`C91_pickle`).
- **C92** `import tinyfk` makes `~/.tinyfk` before it downloads into it and later tests only that the directory exists. When the first import is interrupted, every later import returns and `pr2_urdfpath()` names a missing or cut file for ever (`C92_interrupted`, `C92_cut`); constructing a model from a cut file follows the null pointer that the parser returns (`C92_load`). Two first imports at the same time: one returns before the files exist (`C92_race`) or raises `FileExistsError` (`C92_exists`).
- **C95** the C++ method `set_joint_angle` writes the angle and leaves the pose cache: a pose that was asked for before is returned again (`C95_stale`, `Example.C95_false`).
- **C96/C43** the shipped `data/pr2.urdf` has three continuous joints without `<limit>` (`torso_lift_motor_screw_joint`, `r_gripper_motor_screw_joint`, `l_gripper_motor_screw_joint`); the C++ methods `get_joint_velocity_limits` and `get_joint_effort_limits` on them follow a null pointer (`C96_pr2_null_limits`).
- **C98** a visual that refers to a material which a later link defines has no material; a colour with three numbers is silently black (`ShapeExample.C98_witness`).
- **C99** a mesh with an empty file name is exported without one; on re-reading, the visual is malformed and all later visuals and all collisions of its link are dropped (`ShapeExample.C99_false`).
- **C100** an attribute value that contains "&#x" does not survive saving and loading: `a&#x41;b` becomes `aAb` (`PrintExample.C100_false`), and with `a&#xz;b` the saved file is rejected (`PrintExample.C100_lost`).
- **C102** After writes that keep the cache, a query can return the pose of a configuration the robot never had: some joints old, some new (`Example.C102_mixed`).
- **C103** With `use_cache=True`, or in `solve_com_fk` with a fixed base, a row can be that of a configuration which is neither the one given nor any the robot had (`Example.C103_mixed`).
- **C111** If several joints lead to a link, the one with the greatest name moves it and the others move nothing, but the Jacobian column of the others is filled as if they did: for a sliding joint it is a vector of length one (`C111_phantom`, `C111_phantom_slide`).
- **C119** solve_fk(rot_type=XYZW, with_jacobian=True) with a base angle outside (-pi, pi] (for example yaw 4) returns quaternion rows of about -2e7*q in the columns of the base angles: the base angles are recomputed from the quaternion, and the quaternion of these angles has the opposite sign.
- **C121** a revolute or continuous joint without an axis (`<axis/>`, or `xyz="0 0 0"`) is accepted. Its angle then scales the quaternions of all links behind it instead of being ignored, and so falsifies their pitch; at pi (in exact arithmetic) the links behind it collapse into one point (`NoAxis.C121_witness`).
- **C123** A full turn of the base (yaw and yaw + 2*pi) leaves every position row of the Jacobian alone, but not the quaternion rows in the columns of the base angles, which jump by 2e7 (C119).
- **C130** With assertions off, `solve_com_fk` and fixed-base `solve_fk` accept configurations of the wrong length: surplus numbers are ignored, missing ones are read past the end of the array or, for `solve_com_fk` with a floating base, taken twice (`Example.C130_answers`, `C130_short`, `C130_com_floating`).
- **C131** `compute_inter_link_sqdists` and `compute_total_inertia_matrix` accept configurations with surplus numbers, where `solve_fk` and `solve_com_fk` fail an assertion; with a planar base the base is then put somewhere else (`Example.C131_answers`, `C131_planar`).

## 4. Per property

Status and theorems; the proof method is in the third column.

| id | status | proof | theorems (module) |
|---|---|---|---|
| C01 | proved | induction on the history: every cached pose is the pose of the current core state | `C01_link_pose` (Props/Pose) |
| C02 | proved | frame argument: solve_fk clears the cache and sets every joint | `C02_solve_fk` (Props/PySolve) |
| C03 | proved | composition of the base pose along the chain | `C03_solve_fk_base` (Props/PySolve) |
| C04 | partial | stale cache witness, exact description of what is returned | `C04_use_cache_partial` (Props/Cache), `C04_stale` (Props/Cache), `C04_stale_returns` (Props/Cache), `Example.C04_witness` (Props/CacheWitness) |
| C05 | partial | stale cache witness; sound cases | `C05_com_partial` (Props/Cache), `C05_stale` (Props/Cache), `C05_stale_returns` (Props/Cache), `Example.C05_witness` (Props/CacheWitness) |
| C06 | partial | stale value for every later call; sound case | `C06_value_partial` (Props/FromText), `C06_inertia_partial` (Props/Cache), `C06_stale` (Props/Cache), `Example.C06_witness` (Props/Inertia) |
| C07 | proved | pointwise from C01 | `C07_sqdists` (Props/Dist), `C07_metric` (Props/Dist) |
| C08 | partial | exact depth condition for the stack; overflow witness | `C08_pose_safe_partial` (Props/Pose), `C08_exact` (Props/Pose), `C08_attached_to_description` (Props/EndToEnd), `C08_no_added_link` (Props/EndToEnd), `C08_overflow` (Props/Pose) |
| C09 | partial | table exists iff built; witness | `C09_jacobian_safe_partial` (Props/Links), `C09_no_table` (Props/Links) |
| C10 | proved | DFS invariant: entry iff ancestor | `C10_relevance` (Props/Pose) |
| C11 | proved | frame lemma along the path | `C11_off_path_pose` (Props/Links), `C11_off_path_column` (Props/Links) |
| C12 | proved | association list of names | `C12_joint_names` (Props/Names) |
| C13 | proved | name map invariant | `C13_link_names` (Props/Names) |
| C14 | proved | exception before any effect | `C14_unknown_links` (Props/Names), `C14_unknown_joints` (Props/Names) |
| C15 | proved | exception before any effect | `C15_add_new_link` (Props/Names) |
| C16 | proved | simulation between the robots before and after | `C16_add_new_link_conservative` (Props/Links) |
| C17 | proved | frame conditions per call | `C17_set_joint_angles` (Props/Names) |
| C18 | proved | list lemmas; quaternion to rpy over ℝ | `C18_set_get_fixed` (Props/State), `C18_set_get_floating` (Props/BasePose), `C18_set_get_planar` (Props/BasePose) |
| C19 | proved | quaternion to rpy over ℝ | `C19_round_trip` (Props/BasePose), `C19_wrong_length` (Props/BasePose) |
| C20 | proved | ring identities over ℝ | `C20_rpy` (Props/Rotation) |
| C21 | proved | unit norm invariant along the chain | `C21_quaternion` (Props/Rotation), `C21_rotation` (Props/Rotation), `C21_solve_fk` (Props/Rotation) |
| C22 | proved | Rodrigues formula over ℝ | `C22_group` (Props/Rotation) |
| C23 | proved | homogeneous matrices along the chain | `C23_homogeneous` (Props/Rotation) |
| C24 | proved | trigonometric identities | `C24_relative` (Props/FromText), `C24_base_motion` (Props/Rotation) |
| C25 | proved | HasDerivAt along the chain | `C25_position` (Props/Deriv) |
| C26 | proved | HasDerivAt along the chain | `C26_quaternion` (Props/Deriv) |
| C27 | proved | HasDerivAt along the chain | `C27_rpy` (Props/Deriv) |
| C28 | proved | translation of the whole robot | `C28_base_translation` (Props/BaseJac) |
| C29 | partial | derivative of the rotated robot; counterexample | `C29_base_rotation_partial` (Props/BaseJac), `C29_in_box_partial` (Props/BaseJac), `C29_xyzw_false` (Props/BaseJac) |
| C30 | proved | finite sums | `C30_com` (Props/Com), `C30_com_hull` (Props/Inertia) |
| C31 | proved | linearity of derivatives over the links | `C31_com_jacobian` (Props/ComJac) |
| C32 | proved | finite sums over ℝ | `C32_action_forces` (Props/Inertia) |
| C33 | proved | quadratic form as sum of squares | `C33_symmetric` (Props/Inertia), `C33_posSemidef` (Props/Inertia), `C33_base_motion` (Props/Inertia), `C33_base_translation` (Props/Inertia) |
| C34 | partial | sum formula; counterexample | `C34_inertia_partial` (Props/Inertia), `C34_unrotated` (Props/Inertia), `Example.C34_witness` (Props/Inertia) |
| C35 | proved | invariant of the constructor | `C35_total_mass` (Props/Names), `C35_total_mass_real` (Props/Names) |
| C36 | proved | chain rule on squared norms | `C36_gradient` (Props/BatchJac) |
| C37 | proved | unfolding of the layout | `C37_planar` (Props/PySolve) |
| C38 | partial | shape computation | `C38_columns_partial` (Props/Cache), `C38_planar_columns` (Props/Cache) |
| C39 | proved | row by row induction on the batch | `C39_layout` (Props/PySolve) |
| C40 | proved | column layout | `C40_batch` (Props/PySolve) |
| C41 | proved | independence of rows | `C41_columns` (Props/State), `C41_com_columns` (Props/ComColumns) |
| C42 | proved | list lemmas; parser guarantees limits | `C42_from_text` (Props/FromText), `C42_position_limits` (Props/State), `C42_limits_present` (Props/Parse) |
| C43 | partial | null dereference witness | `C43_limits_partial` (Props/State), `C43_null_limits` (Props/State), `C43_witness` (Props/State) |
| C44 | proved | replay lemma, induction on the history | `C44_pickle` (Props/Pickle) |
| C45 | partial | replay lemma | `C45_pickle_partial` (Props/Pickle), `C45_second_pickle` (Props/Pickle), `Example.C45_false` (Props/Pickle) |
| C46 | partial | replay lemma | `C46_failed_read_partial` (Props/Pickle), `C46_failed_add` (Props/Pickle), `C46_failed_set` (Props/Pickle) |
| C47 | partial | frame lemma | `C47_unchanged_partial` (Props/Pickle), `C47_solver_not_pickled` (Props/Pickle), `Example.C47_false` (Props/Pickle) |
| C48 | proved | characterisation of initTree/initRoot | `C48_accepts_iff` (Props/Build), `C48_root` (Props/Build) |
| C49 | partial | partial correctness of the DFS; divergence by fixpoint induction | `C49_tree_terminates_partial` (Props/Build), `C49_cycle_hangs` (Props/Build), `TwoParents.C49_two_parents` (Props/TwoParents) |
| C50 | partial | case analysis of the constructor | `C50_every_text` (Props/FromText), `C50_truncated` (Props/FromText), `C50_errors_partial` (Props/Build), `C50_null_model` (Props/Build) |
| C51 | proved | induction on characters | `C51_load_urdf` (Props/Parse) |
| C52 | proved | induction on characters | `C52_vector` (Props/Parse) |
| C53 | proved | refinement to a partial map | `C53_cache_refines_map` (Props/Containers) |
| C54 | proved | refinement to a list | `C54_stack_refines_list` (Props/Containers) |
| C55 | proved | frame lemma | `C55_set_init_angles` (Props/Pose) |
| C56 | partial | element-level parse after export | `C56_export_partial` (Props/Export), `C56_origins_lost` (Props/Export), `DocExample.C56_false` (Props/Export) |
| C57 | proved | name map invariant | `C57_com_name_clash` (Props/Build) |
| C58 | proved | progress invariant over histories | `C58_valid_calls_return` (Props/Pose) |
| C59 | partial | shape analysis | `C59_one_dim_partial` (Props/BasePose), `C59_flat_list` (Props/BasePose), `C59_array` (Props/BasePose) |
| C60 | proved | state equality on exceptions | `C60_failed_call` (Props/State) |
| C61 | partial | unsigned wrap | `C61_empty_batch_partial` (Props/BasePose), `C61_empty_base` (Props/BasePose) |
| C62 | proved | rotation matrix entries over ℝ | `C62_rpy_rows` (Props/BasePose) |
| C63 | proved | HasDerivAt of the solver output | `C63_solve_fk_jacobian` (Props/BatchJac), `C63_base_position` (Props/BatchJac) |
| C64 | proved | iff between parser and what elements say | `C64_accepts_iff` (Props/Parse) |
| C65 | proved | uniqueness of what elements say | `C65_content` (Props/Parse) |
| C66 | partial | iff on strtol; witnesses | `C66_version_partial` (Props/Document), `C66_false` (Props/Document) |
| C67 | proved | congruence of the parser | `C67_unused_elements` (Props/Document) |
| C68 | proved | permutation invariance of sorted insertion | `C68_element_order` (Props/Document) |
| C69 | partial | parser ignores the flag; witness | `C69_malformed_joint_partial` (Props/FromText), `C69_malformed_inertial` (Props/Document), `C69_malformed_visual` (Props/Document), `C69_any_inertial` (Props/Document), `DocExample.C69_false` (Props/DocExample) |
| C70 | partial | the parser with its bookkeeping of rows and columns (`Model/XmlStamp`) simulates the one without; well-founded progress along suffixes; the divergence by the least fixed point | `C70_terminates` (Props/XmlEnds), `C70_bookkeeping` (Props/XmlEnds), `C70_bytes_partial` (Props/XmlEnds), `C70_documents` (Props/XmlEnds), `C70_false` (Props/XmlEnds) |
| C71 | partial | suffix invariant; UTF-8 completeness; witness | `C71_in_bounds` (Props/XmlText), `C71_in_bounds_bytes_partial` (Props/XmlText), `C71_false` (Props/XmlText) |
| C72 | proved | mutual induction over a grammar | `C72_wellformed` (Props/XmlText), `C72_urdf` (Props/XmlText), `C72_every_tree` (Props/XmlText) |
| C73 | proved | mutual induction over a grammar and prefixes | `C73_truncated` (Props/XmlText), `C73_truncated_bytes` (Props/XmlText) |
| C74 | partial | induction over malformed elements; counterexamples | `C74_bad_element_partial` (Props/XmlText), `C74_trailing_text` (Props/XmlText), `C74_second_root` (Props/XmlText) |
| C75 | proved | quaternion inner product, arithmetic-geometric mean, bounds on π | `C75_base_pose` (Props/RpyPole), `C75_base_pose_pole` (Props/RpyPole), `C75_rpy_rows` (Props/RpyPole), `C75_not_exact` (Props/RpyPole) |
| C76 | proved | composition of C72, C64/C65, C57, C12-C14, C02 | `C76_from_text` (Props/EndToEnd), `C76_end_to_end` (Props/EndToEnd) |
| C77 | proved | for each method a pair of lemmas over all states that satisfy the array-size invariant: total on bounded arguments, undefined on the others; reached states satisfy the invariant | `C77_defined_exactly` (Props/Bounds), `C77_history` (Props/Bounds) |
| C78 | proved | the quaternion of the turn is not normalised; its matrix is Rodrigues' formula at the stretched angle; quotient rule for the derivative | `C78_stretched_motion` (Props/Axis), `C78_position_column` (Props/Axis), `LongAxis.C78_witness` (Props/Axis) |
| C79 | proved | an invariant that does not need a tree; the walk ends below exactly the accessible links; on finitely many names a link is not accessible iff it reaches a cycle | `C79_construction` (Props/Hang) |
| C80 | proved | a coordinate as a function of one base angle is A cos t + B sin t + C; Taylor bound for the exponential gives the forward difference error | `C80_base_rotation_error` (Props/BaseError), `C80_quaternion_error` (Props/BaseError) |
| C81 | partial | the angles of the configuration and the reported angles describe the same rotation; one chart turns the pitch backwards | `C81_base_angles_partial` (Props/BaseAngles), `C81_pitch_reversed` (Props/BaseAngles), `Example.C81_false` (Props/BaseAngles) |
| C82 | proved | a unit quaternion preserves distances; the forward difference of two points of a rigid body is second order | `C82_base_invariance` (Props/BaseDist) |
| C83 | proved | the centre of mass moves rigidly with the base, then as in C80 with the centre of mass as the point | `C83_com_base` (Props/BaseCom) |
| C84 | proved | the loop of the library passes on digits, one point and one exponent and collapses leading zeros; strtod then reads the same number | `C84_numbers` (Props/Number), `C84_value` (Props/Number), `C84_trailing` (Props/Number), `C84_alphabet` (Props/Number) |
| C85 | proved | the writes of a configuration are a fold, whose result depends only on the last write of each joint; the loops over configurations are then equal step by step | `C85_solve_fk` (Props/Repeated), `C85_solve_com_fk` (Props/Repeated), `C85_sqdists` (Props/Repeated), `C85_inertia` (Props/Repeated), `C85_set_q` (Props/Repeated), `C85_overridden` (Props/Repeated), `C85_columns` (Props/Repeated), `C85_com_columns` (Props/ComColumns), `C85_gradient_columns` (Props/Repeated), `Example.C85_witness` (Props/Repeated) |
| C86 | proved | C31 and the columns of the action links at each configuration; the weighted mean is linear | `C86_solve_com_fk_jacobian` (Props/ComBatchJac) |
| C87 | partial | the functions of the parser are evaluated on the two shapes of documents, for every name, reference, character, body and rest | `C87_documents_partial` (Props/FromText), `C87_reference` (Props/XmlLimits), `C87_early_end` (Props/XmlLimits), `C72_wellformed` (Props/XmlText) |
| C88 | partial | objects on a heap: models, history lists and the caller's lists and arrays are cells; invariant of the model along any program (what the history refers to still has the values of the calls, or, for reused arrays, the same joints and the last values) | `C88_untouched_partial` (Props/PyHeap), `C88_reused_partial` (Props/PyReuse), `C88_written` (Props/PyHeap), `Example.C88_false` (Props/PyHeap) |
| C89 | partial | the replay of `copy.copy` on the shared lists is unrolled: names that were added twice raise, joint values and bases that are set twice are the same | `C89_copy_partial` (Props/PyHeap), `C89_copy_spoils` (Props/PyHeap), `C89_no_links_partial` (Props/PyHeap), `Example.C89_false` (Props/PyHeap) |
| C90 | proved | threads as sequences of steps of the methods, any interleaving as an inductive relation; invariant: the calls that have had their effect, in the order of their effects, run alone give the robot of now and the results so far; every single step on the robot is the effect of some method run alone, which gives reachability | `C90_atomic` (Props/PyThreads), `C90_serial` (Props/PyThreads), `C90_reach` (Props/ThreadReach), `C90_solve_fk` (Props/ThreadReach), `C90_alone` (Props/ThreadTorn) |
| C91 | partial | interleavings are given explicitly for all models and configurations; the example shows that no order of the two calls explains the outcome | `C91_exclusive_partial` (Props/ThreadTorn), `C91_torn` (Props/ThreadTorn), `C91_get` (Props/ThreadTorn), `C91_pickle` (Props/ThreadTorn), `Example.C91_false` (Props/ThreadTorn) |
| C92 | partial | the statements of the import as steps of processes with stop and failure events, any interleaving as an inductive relation; invariant: no process has made the directory, or exactly one has and the files are what its position says; the failures are explicit executions for all contents; what a cut file does comes from C73 | `C92_maker_partial` (Props/PyImport), `C92_one_maker` (Props/PyImport), `C92_contents` (Props/PyImport), `C92_interrupted` (Props/PyImport), `C92_cut` (Props/PyImport), `C92_race` (Props/PyImport), `C92_exists` (Props/PyImport), `C92_load` (Props/PyImport), `Example.C92_false` (Props/PyImport) |
| C93 | proved | cases of the constructor | `C93_arguments` (Props/PyImport), `C93_same` (Props/PyImport) |
| C94 | proved | `double` as real numbers with rounded operations (`Fl F`, an instance of the class over which the model is written; binary64 is a concrete `F`); error bounds for product, inverse, rotation and transform of quaternions by norms in ℍ, for one joint, then by induction along the path; C02 over `Fl F` says which poses are returned | `C94_solve_fk` (Props/Rounding), `C94_world` (Props/Rounding), `C94_pose_numbers` (Props/Rounding), `C94_joint_numbers` (Props/Rounding), `RoundExample.hand` (Props/Rounding) |
| C95 | partial | invariant of reachable states; the cache entry written by a pose query is still there after any number of writes | `C95_clear` (Props/SetAngle), `C95_fresh_partial` (Props/SetAngle), `C95_stale` (Props/SetAngle), `Example.C95_false` (Props/SetAngle) |
| C96 | proved | a recogniser for the grammar of C72/C76 that is proved sound, run by the kernel on the bytes of the three files; then the general theorems | `C96_files` (Props/Shipped), `C96_loads` (Props/Shipped), `C96_poses` (Props/Shipped), `C96_position_limits` (Props/Shipped), `C96_geometry` (Props/Shipped), `C96_jacobian` (Props/Shipped), `C96_inertia` (Props/Shipped), `C96_limits` (Props/Shipped), `C96_pr2_null_limits` (Props/Shipped) |
| C97 | proved | C96 and C94; depth and length of the chains of the three robots by evaluation in the kernel | `C97_accuracy` (Props/ShippedRound) |
| C98 | proved | each parser function is equivalent to a relation between element and value; invariant of the loop over links: the map of materials holds the robot's and the first definitions so far | `C98_shapes` (Props/Shapes), `C98_joints` (Props/Shapes), `ShapeExample.C98_witness` (Props/ExportShapes) |
| C99 | partial | each exported element says the rounded value; the re-read lists are sorted already and materials resolve to themselves | `C99_export_partial` (Props/ExportShapes), `ShapeExample.C99_false` (Props/ExportShapes) |
| C100 | partial | the printed text satisfies the XML grammar of C72 with the same tree, by induction on the tree; for exported robots, every text of a parsed robot is an attribute value of its document | `C100_file_partial` (Props/Print), `C100_printer_partial` (Props/Print), `C100_same_text` (Props/Print), `C100_export_partial` (Props/Print), `C100_resave_partial` (Props/Print), `C100_reference` (Props/Print), `C100_unreadable` (Props/Print), `PrintExample.C100_false` (Props/Print), `PrintExample.C100_lost` (Props/Print) |
| C101 | proved | Same rounding model as C94 (`Fl F`). The column is compared with the derivative of the exact pose as a curve in the angle of the joint: paired induction along the path in the model (`Describes.pose_near`) splits the exact pose at the joint, `turn_deriv`/`slide_deriv` differentiate it, and `Rounding.turn_pos`, `turn_rot`, `axis_near` bound the rounded cross product, quaternion rate and axis. | `C101_jacobian` (Props/RoundJac), `C101_solve_fk` (Props/RoundJac), `RoundExample.hand_jacobian` (Props/RoundJac) |
| C102 | proved | `Spec/Shown` tells the shown value of a joint from the order of events (write, clear, ask for a link, ask for the masses). Three facts about the model: a query reads only angles of joints whose links are not cached (`Blind`); which links are cached is the upward closure of the links asked for (`Asks`, `Closed`); the answer does not depend on the cache when the cache is right (`Uniform`). `Sits` is the invariant over histories. | `C102_pose` (Props/Shown), `C102_queries` (Props/Shown), `C102_exists` (Props/Shown), `Example.C102_mixed` (Props/Shown) |
| C103 | proved | The events of each Python call (`PyCall.events`) are followed with the invariant `Sits` of C102 (`Proofs/ShownPy`); the three loops over rows are one loop (`rowsLoop`), whose rows are each a query that does not notice hidden angles (`Blind`), so each is the row of the robot that shows (`Proofs/ShownRows`, `Proofs/ShownSolve`). | `C103_robot` (Props/PyShown), `C103_solve_fk` (Props/PyShown), `C103_solve_com_fk` (Props/PyShown), `C103_sqdists` (Props/PyShown), `C103_inertia` (Props/PyShown), `C103_poses` (Props/PyShown), `Example.C103_mixed` (Props/PyShown) |
| C104 | proved | `sqDist_near`: the rounded difference of two inexact points is compared with the exact one as a vector (norm of pure quaternions), then the rounded sum of squares with the square of its length; positions by `world_near` of C94. | `C104_sqdists` (Props/RoundDist), `RoundExample.hand_dist` (Props/RoundDist) |
| C105 | proved | `fold_near`: induction over the bodies bounds a rounded running sum by the weights added so far (error linear in the number of bodies); `mean_near` compares quotient of moments and mass; the bodies of the computed and the exact robot are matched through the sorting of the links (`bodies_near`), and their centres by one more weld (`NearAt.weld`). | `C105_mean` (Props/RoundCom), `C105_com` (Props/RoundCom), `C105_solve_com_fk` (Props/RoundCom), `RoundExample.hand_com` (Props/RoundCom) |
| C106 | proved | `grad_near`: twice the rounded inner product of two inexact vectors, compared with the exact one by Cauchy-Schwarz; positions by C94, columns by `Reach.column_near` of C101; the derivative of the squared length is the product rule. | `C106_gradient` (Props/RoundGrad), `RoundExample.hand_gradient` (Props/RoundGrad) |
| C107 | proved | `Reach.body_col`: the column of one body is that of its added centre-of-mass link (C101), which `WeldsApart.inv` traces back to the body; the weighted mean by `mean_near` of C105 with columns in place of points; the derivative of the mean is the mean of the derivatives (`com_coord_deriv`). | `C107_com_jacobian` (Props/RoundComJac), `C107_solve_com_fk` (Props/RoundComJac), `RoundExample.hand_com_jacobian` (Props/RoundComJac) |
| C108 | proved | `Reach.smooth` (Proofs/Motion.lean): the pose of a link is a differentiable function of the whole configuration, by induction along the chain; the partial derivatives are C63, C36, C86 and C81; the total derivative of a differentiable function is the sum of its partial derivatives times the velocities (`velocity_of_partials`, `velocity_near`). | `C108_solve_fk_velocity` (Props/Motion), `C108_turning_base` (Props/Motion), `C108_sqdists_velocity` (Props/Motion), `C108_solve_com_fk_velocity` (Props/Motion) |
| C109 | proved | `WorldPose.turns` (Proofs/Turns.lean): induction along the chain with the relation *same position, quaternions equal up to sign*; a full turn changes sine and cosine of the half angle by a common sign; `Rot.UpToSign.getRPY` for the three branches of the roll-pitch-yaw conversion. | `C109_solve_fk` (Props/Turns), `C109_sqdists` (Props/Turns), `C109_solve_com_fk` (Props/Turns) |
| C110 | proved | `WorldPose.change` (Proofs/Change.lean): induction along the chain on the distance of positions and of unit quaternions; the chord is shorter than the arc (`chord_le`), two unit quaternions turn a vector to places at most twice their distance apart (`rotate_change`); `comOf_change` for the weighted mean. `PathChange` (Spec/Change.lean) adds up the turns, slides and lengths on the path. | `C110_solve_fk` (Props/Change), `C110_sqdists` (Props/Change), `C110_solve_com_fk` (Props/Change) |
| C111 | partial | `Net` (Proofs/Loops.lean) weakens the tree invariant: every child entry comes from a joint, the parent of a link is the parent of the followed joint. `construct_net` and `NetAbs.step` carry it through construction and every history; `Net.onPath_iff`, `Net.joint_split` (Proofs/LoopsMove.lean) tie routes of the description to the parents of the model and give the derivative. `followed`, `NoCycle`, `LoopReach` are in Spec/Loops.lean; the two-joint robot of Props/TwoParents.lean meets every hypothesis. | `C111_pose` (Props/Loops), `C111_off_route` (Props/Loops), `C111_jacobian_partial` (Props/Loops), `C111_phantom` (Props/Loops), `C111_phantom_slide` (Props/Loops) |
| C112 | proved | C96 and C101/C104–C107; depth, length, number of links and size of masses by evaluation in the kernel; the base of a configuration by `C94_pose_numbers` (`Shipped.base_near`) | `C112_jacobians` (Props/ShippedJac), `C112_com` (Props/ShippedJac), `C112_distances` (Props/ShippedDist) |
| C113 | proved | poses and bodies moved by g (C24, C30) give moved curves; C25, C26 and C31 at both base poses and uniqueness of derivatives | `C113_com` (Props/BaseMotion), `C113_jacobian` (Props/BaseMotion), `C113_com_jacobian` (Props/BaseMotion) |
| C114 | proved | poses of the part carried to the whole by induction along the part; uniqueness of the pose of a link (C01); a joint of the part is on the way of a link in the part exactly when it is in the whole, so the columns are computed from the same poses | `C114_part` (Props/Variants), `C114_jacobian` (Props/PartJac) |
| C115 | proved | induction along the path to each link that the described pose is the same; bodies likewise; for the Jacobians, the curves that the joints make links and bodies describe differ by an affine change of parameter, and derivatives are unique (C25, C26, C31) | `C115_reversed` (Props/Variants), `C115_reversed_jacobian` (Props/Variants), `C115_reversed_com_jacobian` (Props/Variants), `C115_shifted` (Props/Variants), `C115_shifted_jacobian` (Props/Variants) |
| C116 | proved | as C115, with a scaled pose at the end of the path and a scaled parameter for prismatic joints | `C116_scaled` (Props/Variants), `C116_scaled_jacobian` (Props/Variants) |
| C117 | proved | the pose of a renamed link by induction along the path; bodies are the same up to order, and sums do not depend on it; derivatives are unique | `C117_poses` (Props/Renaming), `C117_mass` (Props/Renaming), `C117_jacobian` (Props/Renaming) |
| C118 | proved | the five quadratic expressions of getRPY in rounded arithmetic; asin and arg of nearby arguments (the latter up to full turns); the rounded rotation of the increased angles; cancellation bounded by absolute errors; the forward difference of a harmonic function | `C118_jacobian` (Props/RoundBase), `C118_solve_fk` (Props/RoundBase) |
| C119 | partial | a lemma giving all rows of these columns as difference quotients of poses on the increased base; full turns multiply the quaternion by a sign; harmonic functions of the half angle | `C119_difference_partial` (Props/BaseQuat), `C119_quaternion_partial` (Props/BaseQuat), `C119_wrong` (Props/BaseQuat), `Example.C119_false` (Props/BaseQuat) |
| C120 | proved | Along the straight line from w to w' every pose is followed (Proofs/Linear.lean): by induction over the path, the rotation differs from its linear part by at most t^2 tau^2/2 and the position by t^2 (tau^2/2 L + tau sigma). The linear part is therefore the derivative at t = 0, which C108 identifies with the Jacobian times (w' - w); t = 1 gives the claim. Centre of mass: weighted sums of these expansions. | `C120_solve_fk` (Props/Linear), `C120_solve_com_fk` (Props/Linear) |
| C121 | proved | The turn of such a joint is the quaternion (0, 0, 0, cos(a/2)); multiplying a quaternion by a nonzero number does not change the map v -> q v q^-1. Induction over the path (WorldPose.faded), compared with the description in which these joints are fixed (Spec/NoAxis.lean). Collapse and column: the pose of the link is split at the joint (as in C25). | `C121_poses` (Props/NoAxis), `C121_length` (Props/NoAxis), `C121_rpy` (Props/NoAxis), `C121_collapse` (Props/NoAxis), `C121_column` (Props/NoAxis), `NoAxis.C121_witness` (Props/NoAxis) |
| C122 | proved | Both links are followed along the straight line from w to w' (WorldPose.linear, C120) with the base held in place: moving the base without turning it moves all links alike (WorldPose.carry). The squared norm of the difference has derivative 2<x0, l>; C108 identifies it with the gradient times (w' - w). The remainder is |x1 - x0|^2 + 2<x0, x1 - x0 - l>. | `C122_sqdists` (Props/LinearDist) |
| C123 | proved | Closed form of get_jacobian (Proofs/JacQuery) in two reached states whose link poses agree up to the sign of the quaternion (C109); each column is shown to depend on the pose only through what the sign leaves alone. | `C123_solve_fk` (Props/TurnsJac), `C123_sqdists` (Props/TurnsJac), `C123_solve_com_fk` (Props/TurnsJac) |
| C124 | proved | The specification of poses, bodies, centre of mass and inertia (C01, C30, C34, C35) is shown to be homogeneous of the right degrees in c and mu; Jacobian columns are derivatives of it. | `C124_units` (Props/Units), `C124_units_jacobian` (Props/Units) |
| C125 | proved | Induction along the way: composing with a displacement moves the position by the length of the displacement because unit quaternions preserve lengths; the answers are the specified poses by C07 and C02. | `C125_sqdists` (Props/Ways), `C125_solve_fk` (Props/Ways) |
| C126 | proved | Closed form of the columns of get_jacobian, tied to the description through the tree (Reach.column_world): the column of a turning joint is the turned axis times the displacement from the child link, which C125's induction bounds by the way; unit rotations keep the length of the axis. | `C126_solve_fk` (Props/Lever) |
| C127 | proved | For a joint that carries both links the difference of the two columns is axis × difference of positions, which is orthogonal to that difference; for neither both columns vanish. The values are constant because C36 makes them differentiable in the joint with derivative zero everywhere. The bound is Cauchy-Schwarz with C126. | `C127_gradient` (Props/Lever), `C127_value` (Props/Lever) |
| C128 | proved | The mean over bodies of the point Jacobian columns of C25/C26 is split into bodies on the joint's path and off it (zero columns, C11); the velocity of a carried point is affine in the point, so the weighted sum is the velocity of the weighted mean. | `C128_com_column` (Props/Carried), `C128_solve_com_fk` (Props/Carried) |
| C129 | proved | The second moments tr/2*1 - I are linear in I, turn with the link and are m d d^T for the parallel-axis term, so the sum stays semidefinite; trace is invariant under turning; first moments about the centre of mass vanish. | `C129_trace` (Props/Physical), `C129_physical` (Props/Physical), `C129_other_point` (Props/Physical) |
| C130 | proved | The methods are modelled a second time without their assertions (Model/PyNoAssert); the outcomes are compared branch by branch, the loops over configurations by induction. | `C130_solve_fk` (Props/NoAssert), `C130_solve_com_fk` (Props/NoAssert), `C130_set_q` (Props/NoAssert), `C130_moving` (Props/NoAssert), `C130_planar_short` (Props/NoAssert), `C130_long` (Props/NoAssert), `C130_com_long` (Props/NoAssert), `C130_short` (Props/NoAssert), `C130_com_floating` (Props/NoAssert), `C130_com_planar` (Props/NoAssert), `C130_set_q_short` (Props/NoAssert), `C130_set_q_long` (Props/NoAssert), `Example.C130_answers` (Props/NoAssert) |
| C131 | proved | The row of numbers is only read through the writes of joint angles and of the base; both are shown equal for the two rows, and the loop over configurations by induction. | `C131_fixed` (Props/OtherLength), `C131_floating` (Props/OtherLength), `C131_planar` (Props/OtherLength), `C131_inertia` (Props/OtherLength), `Example.C131_answers` (Props/OtherLength) |
| C132 | proved | A calculus of errors relative to a scale (`Sc`): a number at most `B`, known to `k η B`, with the effect of each operation on `B` and `k`. The squared length is computed by way of a square root, so its argument must not be negative, which is where the hypothesis on signs enters. The poses and the centre of mass come from C94 and C105, the sum over the bodies is by induction, and C06 brings it to the Python method. For the example in IEEE arithmetic the bound is 10^-4. | `C132_sum` (Props/RoundInertia), `C132_inertia` (Props/RoundInertia), `C132_compute` (Props/RoundInertia), `RoundExample.hand_inertia` (Props/RoundInertia) |
| C133 | proved | C35 gives the order of the sum; `fold_near` bounds the errors of a sum by induction. | `C133_total_mass` (Props/RoundMass), `C133_python` (Props/RoundMass), `RoundExample.hand_mass` (Props/RoundMass) |
| C134 | proved | The mass is near by C133, so is each share force/mass; `fold_near` bounds numerator and denominator of the mean, started from the centre of mass (C105) and 1; the denominator is at least 1, which bounds the quotient. | `C134_solve_com_fk` (Props/RoundAction), `RoundExample.hand_balance` (Props/RoundAction) |
| C135 | proved | `balance_near` of C134 with the columns of C107 and C101 in place of the positions; the derivative of the balance is the balance of the derivatives. | `C135_solve_com_fk` (Props/RoundActionJac), `RoundExample.hand_balance_jacobian` (Props/RoundActionJac) |
| C136 | proved | The five expressions that `getRPY` reads are within 45η of the exact ones (`Rounding.entries_near`), so the comparison with the cut-off has the exact result (`getRPY_band`); sines and cosines of `asin` and `atan2` move by at most 140η/cos(pitch) (`sine_near`, `direction_near`); the matrix is a polynomial in them (`rpy_matrix_near`). Beyond the cut-off the rounded angles are within 300η of the exact ones used there, which are compared as in C75 (`pole_near`, `poleAngles_near`). The quaternion is near by C94. | `C136_solve_fk` (Props/RoundArc), `C136_base_pose` (Props/RoundArc), `RoundExample.hand_rpy` (Props/RoundArc) |

## 5. Trusted base

- Lean 4.33.0's kernel. Mathlib is used for the reals, derivatives and tactics; every proof term is checked by the kernel.
- Axioms: each theorem depends on at most `propext`, `Classical.choice` and `Quot.sound` (`#print axioms`); there are no own
  axioms, no `sorry`, no `native_decide`, no `bv_decide`.
- Faithfulness of the hand-written model to the C++/Python source: the code was read, not run. The comments cite the lines.
- That evaluating the same floating-point operation on the same operands gives the same result.

Modelled: everything in the table of section 1. Not modelled: floating-point rounding (for the geometric theorems other than C94, C97, C101, C104–C107, C112, C118 and C132–C136, which assume that each operation, `sqrt`, `sin` and `cos` (for C118 and C136 also `asin` and `atan2`) included, is accurate to a relative `u`, and leave out infinities, NaN and the sign of zero), memory
exhaustion, machine stack depth of recursive functions, Eigen and pybind11 internals (matrices are lists of rows, conversions
are checked for shape only), numpy's own broadcasting beyond the calls made, the file system beyond the import-time download, C++ threads (the library starts none; Python threads are in `Model/PyThreads`),
the `std::cerr` logging, world/sensor headers of the URDF package (`urdf_world`, unused), `bench/`, `release/`, locale.

## 6. Testing the theorems

`seeded/LOG.jsonl` records edits of the model (each a plausible bug), the claim the edit breaks, the theorems that no longer
check and any theorem that was tightened as a result. The theorems listed are those in which Lean reports an error; everything
that depends on them is not accepted either.
