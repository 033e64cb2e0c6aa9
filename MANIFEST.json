{
 "claims": [
  {
   "property": "C01",
   "status": "proved",
   "theorems": [
    "Tinyfk.C01_link_pose"
   ],
   "note": "After every history of API calls, any query of a link pose within the stack depth returns the composition of the offsets and joint motions on its chain, bit for bit."
  },
  {
   "property": "C02",
   "status": "proved",
   "theorems": [
    "Tinyfk.C02_solve_fk"
   ],
   "note": "Any Python history, then arbitrary cache contents of the right size; links within the stack depth (C08)."
  },
  {
   "property": "C03",
   "status": "proved",
   "theorems": [
    "Tinyfk.C03_solve_fk_base"
   ],
   "note": ""
  },
  {
   "property": "C04",
   "status": "partial",
   "theorems": [
    "Tinyfk.C04_use_cache_partial",
    "Tinyfk.C04_stale",
    "Tinyfk.C04_stale_returns",
    "Tinyfk.Example.C04_witness"
   ],
   "note": "False of the code in general: with a fixed base, use_cache=True returns poses of an earlier configuration. Proved: what it does return, a concrete wrong answer, and correctness when the angles are those of the preceding use_cache=False call. C103 tells the answer after every history."
  },
  {
   "property": "C05",
   "status": "partial",
   "theorems": [
    "Tinyfk.C05_com_partial",
    "Tinyfk.C05_stale",
    "Tinyfk.C05_stale_returns",
    "Tinyfk.Example.C05_witness"
   ],
   "note": "False of the code for a fixed base: solve_com_fk never clears the cache. Proved for planar and floating bases, and for a single configuration right after clear_cache; what the fixed-base call returns instead; a concrete wrong answer. C103 tells the answer after every history."
  },
  {
   "property": "C06",
   "status": "partial",
   "theorems": [
    "Tinyfk.C06_value_partial",
    "Tinyfk.C06_inertia_partial",
    "Tinyfk.C06_stale",
    "Tinyfk.Example.C06_witness"
   ],
   "note": "False of the code without clear_cache: later calls return the first matrix (proved). Proved right after clear_cache. C103 tells the answer after every history."
  },
  {
   "property": "C07",
   "status": "proved",
   "theorems": [
    "Tinyfk.C07_sqdists",
    "Tinyfk.C07_metric"
   ],
   "note": ""
  },
  {
   "property": "C08",
   "status": "partial",
   "theorems": [
    "Tinyfk.C08_pose_safe_partial",
    "Tinyfk.C08_exact",
    "Tinyfk.C08_attached_to_description",
    "Tinyfk.C08_no_added_link",
    "Tinyfk.C08_overflow"
   ],
   "note": "False of the code in general: links added at depth above the number of URDF links overflow the stack. Proved: exact condition for safety, and the failing witness."
  },
  {
   "property": "C09",
   "status": "partial",
   "theorems": [
    "Tinyfk.C09_jacobian_safe_partial",
    "Tinyfk.C09_no_table"
   ],
   "note": "False of the code in general: without any inertial link and before add_new_link the relevance table does not exist. Proved: safety once the table is built and no link is deeper than the stack, and the failing witness."
  },
  {
   "property": "C10",
   "status": "proved",
   "theorems": [
    "Tinyfk.C10_relevance"
   ],
   "note": "Stated after any history in which the relevance table was built."
  },
  {
   "property": "C11",
   "status": "proved",
   "theorems": [
    "Tinyfk.C11_off_path_pose",
    "Tinyfk.C11_off_path_column"
   ],
   "note": ""
  },
  {
   "property": "C12",
   "status": "proved",
   "theorems": [
    "Tinyfk.C12_joint_names"
   ],
   "note": ""
  },
  {
   "property": "C13",
   "status": "proved",
   "theorems": [
    "Tinyfk.C13_link_names"
   ],
   "note": ""
  },
  {
   "property": "C14",
   "status": "proved",
   "theorems": [
    "Tinyfk.C14_unknown_links",
    "Tinyfk.C14_unknown_joints"
   ],
   "note": ""
  },
  {
   "property": "C15",
   "status": "proved",
   "theorems": [
    "Tinyfk.C15_add_new_link"
   ],
   "note": ""
  },
  {
   "property": "C16",
   "status": "proved",
   "theorems": [
    "Tinyfk.C16_add_new_link_conservative"
   ],
   "note": ""
  },
  {
   "property": "C17",
   "status": "proved",
   "theorems": [
    "Tinyfk.C17_set_joint_angles"
   ],
   "note": ""
  },
  {
   "property": "C18",
   "status": "proved",
   "theorems": [
    "Tinyfk.C18_set_get_fixed",
    "Tinyfk.C18_set_get_floating",
    "Tinyfk.C18_set_get_planar"
   ],
   "note": "Fixed base bit for bit; planar and floating base in exact real arithmetic."
  },
  {
   "property": "C19",
   "status": "proved",
   "theorems": [
    "Tinyfk.C19_round_trip",
    "Tinyfk.C19_wrong_length"
   ],
   "note": "Exact real arithmetic for the round trip."
  },
  {
   "property": "C20",
   "status": "proved",
   "theorems": [
    "Tinyfk.C20_rpy"
   ],
   "note": "Exact real arithmetic."
  },
  {
   "property": "C21",
   "status": "proved",
   "theorems": [
    "Tinyfk.C21_quaternion",
    "Tinyfk.C21_rotation",
    "Tinyfk.C21_solve_fk"
   ],
   "note": "Exact real arithmetic; description with unit rotations and unit turning axes."
  },
  {
   "property": "C22",
   "status": "proved",
   "theorems": [
    "Tinyfk.C22_group"
   ],
   "note": "Exact real arithmetic."
  },
  {
   "property": "C23",
   "status": "proved",
   "theorems": [
    "Tinyfk.C23_homogeneous"
   ],
   "note": "Exact real arithmetic; description with unit rotations and unit turning axes."
  },
  {
   "property": "C24",
   "status": "proved",
   "theorems": [
    "Tinyfk.C24_relative",
    "Tinyfk.C24_base_motion"
   ],
   "note": "Exact real arithmetic."
  },
  {
   "property": "C25",
   "status": "proved",
   "theorems": [
    "Tinyfk.C25_position"
   ],
   "note": ""
  },
  {
   "property": "C26",
   "status": "proved",
   "theorems": [
    "Tinyfk.C26_quaternion"
   ],
   "note": ""
  },
  {
   "property": "C27",
   "status": "proved",
   "theorems": [
    "Tinyfk.C27_rpy"
   ],
   "note": ""
  },
  {
   "property": "C28",
   "status": "proved",
   "theorems": [
    "Tinyfk.C28_base_translation"
   ],
   "note": ""
  },
  {
   "property": "C29",
   "status": "partial",
   "theorems": [
    "Tinyfk.C29_base_rotation_partial",
    "Tinyfk.C29_in_box_partial",
    "Tinyfk.C29_xyzw_false"
   ],
   "note": "False of the code for XYZW when the base angles were set outside the reported range: C29_xyzw_false."
  },
  {
   "property": "C30",
   "status": "proved",
   "theorems": [
    "Tinyfk.C30_com",
    "Tinyfk.C30_com_hull"
   ],
   "note": "Weighted mean for every scalar type; convex hull in exact real arithmetic."
  },
  {
   "property": "C31",
   "status": "proved",
   "theorems": [
    "Tinyfk.C31_com_jacobian"
   ],
   "note": ""
  },
  {
   "property": "C32",
   "status": "proved",
   "theorems": [
    "Tinyfk.C32_action_forces"
   ],
   "note": "Exact real arithmetic. For planar and floating bases, and fixed base right after clear_cache (C05)."
  },
  {
   "property": "C33",
   "status": "proved",
   "theorems": [
    "Tinyfk.C33_symmetric",
    "Tinyfk.C33_posSemidef",
    "Tinyfk.C33_base_motion",
    "Tinyfk.C33_base_translation"
   ],
   "note": "Exact real arithmetic."
  },
  {
   "property": "C34",
   "status": "partial",
   "theorems": [
    "Tinyfk.C34_inertia_partial",
    "Tinyfk.C34_unrotated",
    "Tinyfk.Example.C34_witness"
   ],
   "note": "False of the code for rotated <inertial> origins, whose rotation is dropped (proved, with witness). Proved when no <inertial> origin is rotated."
  },
  {
   "property": "C35",
   "status": "proved",
   "theorems": [
    "Tinyfk.C35_total_mass",
    "Tinyfk.C35_total_mass_real"
   ],
   "note": ""
  },
  {
   "property": "C36",
   "status": "proved",
   "theorems": [
    "Tinyfk.C36_gradient"
   ],
   "note": ""
  },
  {
   "property": "C37",
   "status": "proved",
   "theorems": [
    "Tinyfk.C37_planar"
   ],
   "note": ""
  },
  {
   "property": "C38",
   "status": "partial",
   "theorems": [
    "Tinyfk.C38_columns_partial",
    "Tinyfk.C38_planar_columns"
   ],
   "note": "False of the code: J has six base columns for a planar base (proved). Proved for a floating base."
  },
  {
   "property": "C39",
   "status": "proved",
   "theorems": [
    "Tinyfk.C39_layout"
   ],
   "note": "Non-empty batches; entries are those of get_link_pose and get_jacobian on a robot put in that configuration alone."
  },
  {
   "property": "C40",
   "status": "proved",
   "theorems": [
    "Tinyfk.C40_batch"
   ],
   "note": ""
  },
  {
   "property": "C41",
   "status": "proved",
   "theorems": [
    "Tinyfk.C41_columns",
    "Tinyfk.C41_com_columns"
   ],
   "note": ""
  },
  {
   "property": "C42",
   "status": "proved",
   "theorems": [
    "Tinyfk.C42_from_text",
    "Tinyfk.C42_position_limits",
    "Tinyfk.C42_limits_present"
   ],
   "note": ""
  },
  {
   "property": "C43",
   "status": "partial",
   "theorems": [
    "Tinyfk.C43_limits_partial",
    "Tinyfk.C43_null_limits",
    "Tinyfk.C43_witness"
   ],
   "note": "False of the code: joints without <limit> make the calls dereference null (proved, with witness). Proved for joints with limits."
  },
  {
   "property": "C44",
   "status": "proved",
   "theorems": [
    "Tinyfk.C44_pickle"
   ],
   "note": "Any parser, any text, any interleaving with reads, successful or not."
  },
  {
   "property": "C45",
   "status": "partial",
   "theorems": [
    "Tinyfk.C45_pickle_partial",
    "Tinyfk.C45_second_pickle",
    "Tinyfk.Example.C45_false"
   ],
   "note": "False of the code: unpickling empties the histories. Proved: what a second pickle gives, a concrete refutation, and the case of a model with empty histories."
  },
  {
   "property": "C46",
   "status": "partial",
   "theorems": [
    "Tinyfk.C46_failed_read_partial",
    "Tinyfk.C46_failed_add",
    "Tinyfk.C46_failed_set"
   ],
   "note": "False of the code: a rejected add_new_link or set_q is recorded first, and after it unpickling always raises (proved for every history). Only failing reads are harmless."
  },
  {
   "property": "C47",
   "status": "partial",
   "theorems": [
    "Tinyfk.C47_unchanged_partial",
    "Tinyfk.C47_solver_not_pickled",
    "Tinyfk.Example.C47_false"
   ],
   "note": "False of the code: solvers are not recorded. Proved: the pickle has the robot from before the solver call, and a concrete refutation."
  },
  {
   "property": "C48",
   "status": "proved",
   "theorems": [
    "Tinyfk.C48_accepts_iff",
    "Tinyfk.C48_root"
   ],
   "note": "Stated on the parsed link and joint elements."
  },
  {
   "property": "C49",
   "status": "partial",
   "theorems": [
    "Tinyfk.C49_tree_terminates_partial",
    "Tinyfk.C49_cycle_hangs",
    "Tinyfk.TwoParents.C49_two_parents"
   ],
   "note": "False of the code: a cycle beside the root is accepted and construction never returns. Proved: construction on accepted trees terminates with a model or invalid_argument; the failing witness."
  },
  {
   "property": "C50",
   "status": "partial",
   "theorems": [
    "Tinyfk.C50_every_text",
    "Tinyfk.C50_truncated",
    "Tinyfk.C50_errors_partial",
    "Tinyfk.C50_null_model"
   ],
   "note": "False of the code: every rejected description leads to a null dereference in the constructor (proved). Proved for empty text and unsupported joint types."
  },
  {
   "property": "C51",
   "status": "proved",
   "theorems": [
    "Tinyfk.C51_load_urdf"
   ],
   "note": ""
  },
  {
   "property": "C52",
   "status": "proved",
   "theorems": [
    "Tinyfk.C52_vector"
   ],
   "note": "For every reader of numbers."
  },
  {
   "property": "C53",
   "status": "proved",
   "theorems": [
    "Tinyfk.C53_cache_refines_map"
   ],
   "note": ""
  },
  {
   "property": "C54",
   "status": "proved",
   "theorems": [
    "Tinyfk.C54_stack_refines_list"
   ],
   "note": ""
  },
  {
   "property": "C55",
   "status": "proved",
   "theorems": [
    "Tinyfk.C55_set_init_angles"
   ],
   "note": ""
  },
  {
   "property": "C56",
   "status": "partial",
   "theorems": [
    "Tinyfk.C56_export_partial",
    "Tinyfk.C56_origins_lost",
    "Tinyfk.DocExample.C56_false"
   ],
   "note": "False of the code (dangling else): proved that the origin of every joint is lost in every export, a concrete refutation, and that everything else of the kinematics survives up to rounding of numbers."
  },
  {
   "property": "C57",
   "status": "proved",
   "theorems": [
    "Tinyfk.C57_com_name_clash"
   ],
   "note": ""
  },
  {
   "property": "C58",
   "status": "proved",
   "theorems": [
    "Tinyfk.C58_valid_calls_return"
   ],
   "note": "Valid: ids in range, vector lengths match, and the depth / relevance-table preconditions of C08, C09."
  },
  {
   "property": "C59",
   "status": "partial",
   "theorems": [
    "Tinyfk.C59_one_dim_partial",
    "Tinyfk.C59_flat_list",
    "Tinyfk.C59_array"
   ],
   "note": "False of the code: solve_fk raises for a flat list, solve_com_fk for a 1-d array (proved). Proved for the other two cases."
  },
  {
   "property": "C60",
   "status": "proved",
   "theorems": [
    "Tinyfk.C60_failed_call"
   ],
   "note": "The record for pickling does change: C46."
  },
  {
   "property": "C61",
   "status": "partial",
   "theorems": [
    "Tinyfk.C61_empty_batch_partial",
    "Tinyfk.C61_empty_base"
   ],
   "note": "False of the code with a planar or floating base: undefined behaviour (proved). Proved for a fixed base."
  },
  {
   "property": "C62",
   "status": "proved",
   "theorems": [
    "Tinyfk.C62_rpy_rows"
   ],
   "note": "Exact real arithmetic, outside the band |sin pitch| >= 0.99999."
  },
  {
   "property": "C63",
   "status": "proved",
   "theorems": [
    "Tinyfk.C63_solve_fk_jacobian",
    "Tinyfk.C63_base_position"
   ],
   "note": "Joint columns and base position columns; for the base rotation columns see C29."
  },
  {
   "property": "C64",
   "status": "proved",
   "theorems": [
    "Tinyfk.C64_accepts_iff"
   ],
   "note": "On element trees; the XML text level is a separate claim."
  },
  {
   "property": "C65",
   "status": "proved",
   "theorems": [
    "Tinyfk.C65_content"
   ],
   "note": ""
  },
  {
   "property": "C66",
   "status": "partial",
   "theorems": [
    "Tinyfk.C66_version_partial",
    "Tinyfk.C66_false"
   ],
   "note": "False of the code: exact characterisation of the accepted strings and refutation."
  },
  {
   "property": "C67",
   "status": "proved",
   "theorems": [
    "Tinyfk.C67_unused_elements"
   ],
   "note": ""
  },
  {
   "property": "C68",
   "status": "proved",
   "theorems": [
    "Tinyfk.C68_element_order"
   ],
   "note": ""
  },
  {
   "property": "C69",
   "status": "partial",
   "theorems": [
    "Tinyfk.C69_malformed_joint_partial",
    "Tinyfk.C69_malformed_inertial",
    "Tinyfk.C69_malformed_visual",
    "Tinyfk.C69_any_inertial",
    "Tinyfk.DocExample.C69_false"
   ],
   "note": "False of the code: proved that the contents of link elements never cause rejection, what the link gets instead, and a concrete refutation."
  },
  {
   "property": "C70",
   "status": "partial",
   "theorems": [
    "Tinyfk.C70_terminates",
    "Tinyfk.C70_bookkeeping",
    "Tinyfk.C70_bytes_partial",
    "Tinyfk.C70_documents",
    "Tinyfk.C70_false"
   ],
   "note": "Proved for every Python str; for bytes under the stated condition; refuted for arbitrary bytes. Machine stack depth for deeply nested elements is not modelled."
  },
  {
   "property": "C71",
   "status": "partial",
   "theorems": [
    "Tinyfk.C71_in_bounds",
    "Tinyfk.C71_in_bounds_bytes_partial",
    "Tinyfk.C71_false"
   ],
   "note": "Proved for every Python str; for bytes under the stated condition; refuted for arbitrary bytes."
  },
  {
   "property": "C72",
   "status": "proved",
   "theorems": [
    "Tinyfk.C72_wellformed",
    "Tinyfk.C72_urdf",
    "Tinyfk.C72_every_tree"
   ],
   "note": "Grammar in Spec/XmlDoc: names may have characters beyond ASCII, but not U+F000 to U+FFFF; what is outside it is C87. Values are compared as bytes, without the normalisation of line ends and tabs that XML asks for."
  },
  {
   "property": "C73",
   "status": "proved",
   "theorems": [
    "Tinyfk.C73_truncated",
    "Tinyfk.C73_truncated_bytes"
   ],
   "note": "Rejected means the parser returns null; C50 says what the constructor does with it."
  },
  {
   "property": "C74",
   "status": "partial",
   "theorems": [
    "Tinyfk.C74_bad_element_partial",
    "Tinyfk.C74_trailing_text",
    "Tinyfk.C74_second_root"
   ],
   "note": "False of the code: trailing text and a second root are accepted (for every document). Proved that mismatched tags and repeated attributes are rejected at any depth."
  },
  {
   "property": "C75",
   "status": "proved",
   "theorems": [
    "Tinyfk.C75_base_pose",
    "Tinyfk.C75_base_pose_pole",
    "Tinyfk.C75_rpy_rows",
    "Tinyfk.C75_not_exact"
   ],
   "note": "C75_not_exact shows that the bound cannot be replaced by equality."
  },
  {
   "property": "C76",
   "status": "proved",
   "theorems": [
    "Tinyfk.C76_from_text",
    "Tinyfk.C76_end_to_end"
   ],
   "note": "num, the reader of one number (strtod in the C locale), is a parameter; C76_from_text gives the hypotheses of all theorems about histories."
  },
  {
   "property": "C77",
   "status": "proved",
   "theorems": [
    "Tinyfk.C77_defined_exactly",
    "Tinyfk.C77_history"
   ],
   "note": "Both directions: bounded arguments never touch memory outside an array, unbounded ones always do. Assumes the stack bound of C08, a robot with a mass or an added link for Jacobians (C09) and limits where the URDF standard requires them for get_joint_limits (C42)."
  },
  {
   "property": "C78",
   "status": "proved",
   "theorems": [
    "Tinyfk.C78_stretched_motion",
    "Tinyfk.C78_position_column",
    "Tinyfk.LongAxis.C78_witness"
   ],
   "note": "C23 and C25 without the hypothesis that axes are unit vectors. The witness shows a column 4 times too large. Axes of length 0 are excluded."
  },
  {
   "property": "C79",
   "status": "proved",
   "theorems": [
    "Tinyfk.C79_construction"
   ],
   "note": "Every scalar type. The condition is stated with the names in the joint elements and Mathlib's transitive closure; C49 has the two concrete anomalies."
  },
  {
   "property": "C80",
   "status": "proved",
   "theorems": [
    "Tinyfk.C80_base_rotation_error",
    "Tinyfk.C80_quaternion_error"
   ],
   "note": "Over the reals: this is the truncation error of the forward difference, floating-point rounding is not modelled. The RPY rows are in C62 and C75."
  },
  {
   "property": "C81",
   "status": "partial",
   "theorems": [
    "Tinyfk.C81_base_angles_partial",
    "Tinyfk.C81_pitch_reversed",
    "Tinyfk.Example.C81_false"
   ],
   "note": "The code falsifies the claim: for a pitch with negative cosine the pitch column has the wrong sign (C81_pitch_reversed in general, C81_false for one configuration). The partial theorem is the claim for all other columns and configurations away from the singularity."
  },
  {
   "property": "C82",
   "status": "proved",
   "theorems": [
    "Tinyfk.C82_base_invariance"
   ],
   "note": "The gradient of a constant is 0; the code returns numbers up to 1e-7 times the squared distance instead, always with the same sign."
  },
  {
   "property": "C83",
   "status": "proved",
   "theorems": [
    "Tinyfk.C83_com_base"
   ],
   "note": "Over the reals, like C80."
  },
  {
   "property": "C84",
   "status": "proved",
   "theorems": [
    "Tinyfk.C84_numbers",
    "Tinyfk.C84_value",
    "Tinyfk.C84_trailing",
    "Tinyfk.C84_alphabet"
   ],
   "note": "The state machine of operator>> (GCC 13) is modelled; the rounding of a decimal number to a double is a parameter, C84_value has the exact value. DocExample.robot_text_exact instantiates C76 with this reader."
  },
  {
   "property": "C85",
   "status": "proved",
   "theorems": [
    "Tinyfk.C85_solve_fk",
    "Tinyfk.C85_solve_com_fk",
    "Tinyfk.C85_sqdists",
    "Tinyfk.C85_inertia",
    "Tinyfk.C85_set_q",
    "Tinyfk.C85_overridden",
    "Tinyfk.C85_columns",
    "Tinyfk.C85_com_columns",
    "Tinyfk.C85_gradient_columns",
    "Tinyfk.Example.C85_witness"
   ],
   "note": "Last write wins for every scalar type and every state, also when the call fails. compute_inter_link_sqdists with a floating base: rows that hold a base."
  },
  {
   "property": "C86",
   "status": "proved",
   "theorems": [
    "Tinyfk.C86_solve_com_fk_jacobian"
   ],
   "note": "Exact real arithmetic. Joint columns; the base columns are C83."
  },
  {
   "property": "C87",
   "status": "partial",
   "theorems": [
    "Tinyfk.C87_documents_partial",
    "Tinyfk.C87_reference",
    "Tinyfk.C87_early_end",
    "Tinyfk.C72_wellformed"
   ],
   "note": "False of the code, for whole classes of documents: every reference to a character that is not ASCII in an unmarked document, every early > followed by something that is not markup. What holds is C72_wellformed."
  },
  {
   "property": "C88",
   "status": "partial",
   "theorems": [
    "Tinyfk.C88_untouched_partial",
    "Tinyfk.C88_reused_partial",
    "Tinyfk.C88_written",
    "Tinyfk.Example.C88_false"
   ],
   "note": "False of the code: an array that is changed after set_q changes the pickle (C88_written: the unpickled joints have the new values). It holds for programs that do not change an argument after the call, and for programs that use one array for all configurations and do not change it after the last call."
  },
  {
   "property": "C89",
   "status": "partial",
   "theorems": [
    "Tinyfk.C89_copy_partial",
    "Tinyfk.C89_copy_spoils",
    "Tinyfk.C89_no_links_partial",
    "Tinyfk.Example.C89_false"
   ],
   "note": "False of the code: after a copy of a model with an added link, pickling or copying the original raises (C89_copy_spoils). The copy itself has the same robot, the original's robot does not change, and without added links the original can still be pickled."
  },
  {
   "property": "C90",
   "status": "proved",
   "theorems": [
    "Tinyfk.C90_atomic",
    "Tinyfk.C90_serial",
    "Tinyfk.C90_reach",
    "Tinyfk.C90_solve_fk",
    "Tinyfk.C90_alone"
   ],
   "note": "The interpreter lock and the atomicity of list.append are part of the model (wrapper.cpp releases the lock nowhere). Arguments shared between threads are not."
  },
  {
   "property": "C91",
   "status": "partial",
   "theorems": [
    "Tinyfk.C91_exclusive_partial",
    "Tinyfk.C91_torn",
    "Tinyfk.C91_get",
    "Tinyfk.C91_pickle",
    "Tinyfk.Example.C91_false"
   ],
   "note": "False of the code: two set_q calls with a base can leave the joints of one with the base of the other (C91_torn), get_q can return new joints with the old base (C91_get), and the pickled order of two set_q calls can differ from the order in which they took effect (C91_pickle). A call during which no other thread makes a step is as if made alone; at every moment the robot is one that a single thread can bring about (C90_reach)."
  },
  {
   "property": "C92",
   "status": "partial",
   "theorems": [
    "Tinyfk.C92_maker_partial",
    "Tinyfk.C92_one_maker",
    "Tinyfk.C92_contents",
    "Tinyfk.C92_interrupted",
    "Tinyfk.C92_cut",
    "Tinyfk.C92_race",
    "Tinyfk.C92_exists",
    "Tinyfk.C92_load",
    "Tinyfk.Example.C92_false"
   ],
   "note": "False of the code. An import that finds the directory returns at once: while another process is still downloading (C92_race) and for ever after a download that was interrupted (C92_interrupted, C92_cut). Of two first imports one can raise FileExistsError (C92_exists). What holds: the files are complete when the import of the process that made the directory has returned, and at every moment a file has the first bytes of the right ones. C92_load: with a file cut off before the end of its root element no model is made; the constructor follows a null pointer."
  },
  {
   "property": "C93",
   "status": "proved",
   "theorems": [
    "Tinyfk.C93_arguments",
    "Tinyfk.C93_same"
   ],
   "note": "Reading a file is a parameter: any function from paths to texts or exceptions."
  },
  {
   "property": "C94",
   "status": "proved",
   "theorems": [
    "Tinyfk.C94_solve_fk",
    "Tinyfk.C94_world",
    "Tinyfk.C94_pose_numbers",
    "Tinyfk.C94_joint_numbers",
    "Tinyfk.RoundExample.hand"
   ],
   "note": "For `Small` numbers (stated in Spec/Rounding). With a planar or floating base use_cache=True returns the same numbers (C03, over any number type). For the RPY columns of P see C136, for the Jacobian see C101. `RoundExample.hand` is a robot with the numbers 1/3 and 1/10 in binary64: nine digits are right."
  },
  {
   "property": "C95",
   "status": "partial",
   "theorems": [
    "Tinyfk.C95_clear",
    "Tinyfk.C95_fresh_partial",
    "Tinyfk.C95_stale",
    "Tinyfk.Example.C95_false"
   ],
   "note": "False: once the pose of a link was asked for, set_joint_angle has no effect on it (C95_stale, every history). True directly after a call that drops the cache (C95_fresh_partial), and always when clear_cache() follows (C95_clear)."
  },
  {
   "property": "C96",
   "status": "proved",
   "theorems": [
    "Tinyfk.C96_files",
    "Tinyfk.C96_loads",
    "Tinyfk.C96_poses",
    "Tinyfk.C96_position_limits",
    "Tinyfk.C96_geometry",
    "Tinyfk.C96_jacobian",
    "Tinyfk.C96_inertia",
    "Tinyfk.C96_limits",
    "Tinyfk.C96_pr2_null_limits"
   ],
   "note": "The text of each file is in Data/, with a table of its links and joints; that the text says what the table says is proved by a recogniser that is proved sound and evaluated in the kernel. Numbers: for every rounding that reads ordinary decimals (Reads); C96_geometry, C96_jacobian and C96_inertia are over the reals with exact reading. C++ velocity and effort limits: defined on kuka and fetch (C96_limits), undefined on three joints of pr2 (C96_pr2_null_limits, an instance of C43)."
  },
  {
   "property": "C97",
   "status": "proved",
   "theorems": [
    "Tinyfk.C97_accuracy"
   ],
   "note": "The arithmetic is any with u <= 2^-53 (binary64 with correctly rounded sin, cos, sqrt is an instance), with any base type and use_cache=False. Not modelled: infinities, not-a-number, the sign of zero."
  },
  {
   "property": "C98",
   "status": "proved",
   "theorems": [
    "Tinyfk.C98_shapes",
    "Tinyfk.C98_joints",
    "Tinyfk.ShapeExample.C98_witness"
   ],
   "note": "For every scalar type. What counts as malformed, and that nothing after a malformed element of a link is kept, is part of the specification (LinkShapes); a colour with other than four numbers counts as given and is black."
  },
  {
   "property": "C99",
   "status": "partial",
   "theorems": [
    "Tinyfk.C99_export_partial",
    "Tinyfk.ShapeExample.C99_false"
   ],
   "note": "False: names of visuals and collisions, undefined material names, calibrations without edges and mimics with an empty joint name are lost, and a mesh without file name makes everything after it in its link disappear. C99_export_partial says exactly what comes back (an equation). Colours are kept as float by the code, and so in the model (Scalar.toFloat, an operation without laws)."
  },
  {
   "property": "C100",
   "status": "partial",
   "theorems": [
    "Tinyfk.C100_file_partial",
    "Tinyfk.C100_printer_partial",
    "Tinyfk.C100_same_text",
    "Tinyfk.C100_export_partial",
    "Tinyfk.C100_resave_partial",
    "Tinyfk.C100_reference",
    "Tinyfk.C100_unreadable",
    "Tinyfk.PrintExample.C100_false",
    "Tinyfk.PrintExample.C100_lost"
   ],
   "note": "False for values that contain \"&#x\": the writer copies that and what follows it up to the next ';' as it is. A value with a reference such as &#x41; comes back with the character in its place (C100_reference), one where no number follows makes the file unreadable (C100_unreadable). Proved for all trees whose values are texts without NUL and without \"&#x\"; names are ASCII XML names (those that exportURDF writes are)."
  },
  {
   "property": "C101",
   "status": "proved",
   "theorems": [
    "Tinyfk.C101_jacobian",
    "Tinyfk.C101_solve_fk",
    "Tinyfk.RoundExample.hand_jacobian"
   ],
   "note": "Exact robot with unit rotations and unit turning axes, as the parser makes them. Position and quaternion rows; roll-pitch-yaw rows are not bounded (the accuracy of the C library's atan2 and asin is not modelled), nor are the base columns."
  },
  {
   "property": "C102",
   "status": "proved",
   "theorems": [
    "Tinyfk.C102_pose",
    "Tinyfk.C102_queries",
    "Tinyfk.C102_exists",
    "Tinyfk.Example.C102_mixed"
   ],
   "note": "What the calls of C04, C05, C06 and C95 return in place of the value at the present angles. The answer can be that of a configuration the robot never had (Example.C102_mixed)."
  },
  {
   "property": "C103",
   "status": "proved",
   "theorems": [
    "Tinyfk.C103_robot",
    "Tinyfk.C103_solve_fk",
    "Tinyfk.C103_solve_com_fk",
    "Tinyfk.C103_sqdists",
    "Tinyfk.C103_inertia",
    "Tinyfk.C103_poses",
    "Tinyfk.Example.C103_mixed"
   ],
   "note": "What the calls of C04, C05, C06 and C07 return in place of the values of their rows. FkShown, ComShown and DistShown name the rows of a robot on which the angles that show were set with set_joint_angles, a state of which the theorems about Reach tell the answers; C103_robot: there is one, up to its cache; C103_poses says it for poses without a second robot."
  },
  {
   "property": "C104",
   "status": "proved",
   "theorems": [
    "Tinyfk.C104_sqdists",
    "Tinyfk.RoundExample.hand_dist"
   ],
   "note": "Same model of rounding and same assumptions as C94, and in addition 64(1+R+D)^2 within the range. For gradients see C106."
  },
  {
   "property": "C105",
   "status": "proved",
   "theorems": [
    "Tinyfk.C105_mean",
    "Tinyfk.C105_com",
    "Tinyfk.C105_solve_com_fk",
    "Tinyfk.RoundExample.hand_com"
   ],
   "note": "Same model of rounding and same assumptions as C94; masses are not negative, their sum is positive, and total mass times mu is at least tiny. For the Jacobian see C107; action forces are in C134."
  },
  {
   "property": "C106",
   "status": "proved",
   "theorems": [
    "Tinyfk.C106_gradient",
    "Tinyfk.RoundExample.hand_gradient"
   ],
   "note": "Exact robot with unit rotations, unit turning axes and distinct joint names, as the parser makes them; 1000(1+R+D)^2 within the range. Joint columns; the base columns are not bounded."
  },
  {
   "property": "C107",
   "status": "proved",
   "theorems": [
    "Tinyfk.C107_com_jacobian",
    "Tinyfk.C107_solve_com_fk",
    "Tinyfk.RoundExample.hand_com_jacobian"
   ],
   "note": "Exact robot as in C106; masses as in C105. Joint columns; base columns and with action forces see C135."
  },
  {
   "property": "C108",
   "status": "proved",
   "theorems": [
    "Tinyfk.C108_solve_fk_velocity",
    "Tinyfk.C108_turning_base",
    "Tinyfk.C108_sqdists_velocity",
    "Tinyfk.C108_solve_com_fk_velocity"
   ],
   "note": "Over the reals, unit rotations and unit turning axes. RPY rows away from the singularity and the jumps at pi. Turning floating base: away from the singularity and with a pitch of positive cosine (C81 is false otherwise)."
  },
  {
   "property": "C109",
   "status": "proved",
   "theorems": [
    "Tinyfk.C109_solve_fk",
    "Tinyfk.C109_sqdists",
    "Tinyfk.C109_solve_com_fk"
   ],
   "note": "Over the reals (in doubles 2*pi itself is rounded). No unit or nonzero hypothesis on axes and rotations. Fixed base: use_cache=False, or for solve_com_fk one configuration right after clear_cache (C04 and C05 are false otherwise)."
  },
  {
   "property": "C110",
   "status": "proved",
   "theorems": [
    "Tinyfk.C110_solve_fk",
    "Tinyfk.C110_sqdists",
    "Tinyfk.C110_solve_com_fk"
   ],
   "note": "Over the reals, unit rotations and unit turning axes. Centre of mass: nonnegative masses, not all zero, no action forces. Fixed base: use_cache=False, or for solve_com_fk one configuration right after clear_cache."
  },
  {
   "property": "C111",
   "status": "partial",
   "theorems": [
    "Tinyfk.C111_pose",
    "Tinyfk.C111_off_route",
    "Tinyfk.C111_jacobian_partial",
    "Tinyfk.C111_phantom",
    "Tinyfk.C111_phantom_slide"
   ],
   "note": "Poses: proved, or the fixed stack overflows. Jacobian: proved for joints on the followed route or on no route; false for joints on another route, whose column is not zero although they move nothing (C111_phantom says exactly what it is). Over the reals and unit rotations for the Jacobian; at least one link with an inertial or one add_new_link, because the relevance table is filled only then."
  },
  {
   "property": "C112",
   "status": "proved",
   "theorems": [
    "Tinyfk.C112_jacobians",
    "Tinyfk.C112_com",
    "Tinyfk.C112_distances"
   ],
   "note": "Arithmetic as in C97. For the centre of mass, a number whose digits are all zero must be read as zero (IEEE does; one body of kuka.urdf has the mass 0.0). solve_com_fk without action links; base columns are not bounded. For a fixed base solve_com_fk has to follow clear_cache, because it uses the poses of the previous call otherwise (C05)."
  },
  {
   "property": "C113",
   "status": "proved",
   "theorems": [
    "Tinyfk.C113_com",
    "Tinyfk.C113_jacobian",
    "Tinyfk.C113_com_jacobian"
   ],
   "note": "Exact arithmetic. Total mass not zero for the centre of mass (else it divides by zero). Roll-pitch-yaw rows have no such law: they are coordinates of the rotation (C62, C75). The counterpart for poses is C24, for the inertia C33, for distances C82."
  },
  {
   "property": "C114",
   "status": "proved",
   "theorems": [
    "Tinyfk.C114_part",
    "Tinyfk.C114_jacobian"
   ],
   "note": "Any arithmetic. Neither object's depth exceeds the query stack (Shallow; see C08)."
  },
  {
   "property": "C115",
   "status": "proved",
   "theorems": [
    "Tinyfk.C115_reversed",
    "Tinyfk.C115_reversed_jacobian",
    "Tinyfk.C115_reversed_com_jacobian",
    "Tinyfk.C115_shifted",
    "Tinyfk.C115_shifted_jacobian"
   ],
   "note": "Exact arithmetic. The Jacobian statements, and shifts, need unit axes of turning joints and unit origin quaternions (as <origin rpy> gives). Joint columns only; roll-pitch-yaw rows are not covered."
  },
  {
   "property": "C116",
   "status": "proved",
   "theorems": [
    "Tinyfk.C116_scaled",
    "Tinyfk.C116_scaled_jacobian"
   ],
   "note": "Exact arithmetic. Masses and inertia tensors are not changed. Joint columns only: the base-angle columns are difference quotients with a fixed angle step (C81), the base-position columns are 0 and 1 (C28)."
  },
  {
   "property": "C117",
   "status": "proved",
   "theorems": [
    "Tinyfk.C117_poses",
    "Tinyfk.C117_mass",
    "Tinyfk.C117_jacobian"
   ],
   "note": "Poses in every arithmetic; the others in exact arithmetic, because bodies are summed in the order of their names. The renaming must keep <name>_com of a link with mass the _com of its new name; distinct names stay distinct because the renamed description is accepted (C64)."
  },
  {
   "property": "C118",
   "status": "proved",
   "theorems": [
    "Tinyfk.C118_jacobian",
    "Tinyfk.C118_solve_fk"
   ],
   "note": "Position rows. The bound grows like 1/c towards the singularity; pitches beyond a right angle are excluded because the code is wrong there (C81_pitch_reversed). The constants are pessimistic. Besides the assumptions of C94, asin and atan2 are accurate to u."
  },
  {
   "property": "C119",
   "status": "partial",
   "theorems": [
    "Tinyfk.C119_difference_partial",
    "Tinyfk.C119_quaternion_partial",
    "Tinyfk.C119_wrong",
    "Tinyfk.Example.C119_false"
   ],
   "note": "The code falsifies the claim: when the base angles of the configuration are an odd number of full turns away from the range in which get_base_pose reports them (for example a planar base with yaw 4), the quaternion rows are -2e7 times the quaternion (C119_wrong for every such configuration, C119_false for one). C119_quaternion_partial is the claim for all other configurations whose pitch has a positive cosine; C119_difference_partial covers the roll-pitch-yaw rows. Exact arithmetic."
  },
  {
   "property": "C120",
   "status": "proved",
   "theorems": [
    "Tinyfk.C120_solve_fk",
    "Tinyfk.C120_solve_com_fk"
   ],
   "note": ""
  },
  {
   "property": "C121",
   "status": "proved",
   "theorems": [
    "Tinyfk.C121_poses",
    "Tinyfk.C121_length",
    "Tinyfk.C121_rpy",
    "Tinyfk.C121_collapse",
    "Tinyfk.C121_column",
    "Tinyfk.NoAxis.C121_witness"
   ],
   "note": "The axes of length 0 that C78 leaves out. Real arithmetic: in doubles cos(pi/2) is not exactly 0."
  },
  {
   "property": "C122",
   "status": "proved",
   "theorems": [
    "Tinyfk.C122_sqdists"
   ],
   "note": ""
  },
  {
   "property": "C123",
   "status": "proved",
   "theorems": [
    "Tinyfk.C123_solve_fk",
    "Tinyfk.C123_sqdists",
    "Tinyfk.C123_solve_com_fk"
   ],
   "note": "Over the reals (in doubles 2*pi itself is rounded). No unit or nonzero hypothesis on axes and rotations, joints may be listed twice. The quaternion rows of base angle columns are left out on purpose: the code falsifies the law there (C119_wrong against C119_quaternion_partial: a full turn of the base changes them by 2e7). Fixed base: use_cache=False, or for solve_com_fk one configuration right after clear_cache, as in C109."
  },
  {
   "property": "C124",
   "status": "proved",
   "theorems": [
    "Tinyfk.C124_units",
    "Tinyfk.C124_units_jacobian"
   ],
   "note": "Over the reals. Generalises C116 from length to length and mass and adds the total mass and the total inertia. Unit axes and unit quaternions are assumed, as for the inertia in C34."
  },
  {
   "property": "C125",
   "status": "proved",
   "theorems": [
    "Tinyfk.C125_sqdists",
    "Tinyfk.C125_solve_fk"
   ],
   "note": "Over the reals, unit rotations and unit turning axes. Fixed base: use_cache=False."
  },
  {
   "property": "C126",
   "status": "proved",
   "theorems": [
    "Tinyfk.C126_solve_fk"
   ],
   "note": "Over the reals, unit rotations and unit turning axes. Fixed base: use_cache=False."
  },
  {
   "property": "C127",
   "status": "proved",
   "theorems": [
    "Tinyfk.C127_gradient",
    "Tinyfk.C127_value"
   ],
   "note": "Over the reals. The value and the bounds need unit rotations and unit turning axes; the zero entry does not. Fixed base: use_cache=False."
  },
  {
   "property": "C128",
   "status": "proved",
   "theorems": [
    "Tinyfk.C128_com_column",
    "Tinyfk.C128_solve_com_fk"
   ],
   "note": ""
  },
  {
   "property": "C129",
   "status": "proved",
   "theorems": [
    "Tinyfk.C129_trace",
    "Tinyfk.C129_physical",
    "Tinyfk.C129_other_point"
   ],
   "note": "Exact real arithmetic."
  },
  {
   "property": "C130",
   "status": "proved",
   "theorems": [
    "Tinyfk.C130_solve_fk",
    "Tinyfk.C130_solve_com_fk",
    "Tinyfk.C130_set_q",
    "Tinyfk.C130_moving",
    "Tinyfk.C130_planar_short",
    "Tinyfk.C130_long",
    "Tinyfk.C130_com_long",
    "Tinyfk.C130_short",
    "Tinyfk.C130_com_floating",
    "Tinyfk.C130_com_planar",
    "Tinyfk.C130_set_q_short",
    "Tinyfk.C130_set_q_long",
    "Tinyfk.Example.C130_answers"
   ],
   "note": "Holds over any number type, so also with rounding."
  },
  {
   "property": "C131",
   "status": "proved",
   "theorems": [
    "Tinyfk.C131_fixed",
    "Tinyfk.C131_floating",
    "Tinyfk.C131_planar",
    "Tinyfk.C131_inertia",
    "Tinyfk.Example.C131_answers"
   ],
   "note": "Too few numbers are undefined behaviour (C77). Holds over any number type, so also with rounding."
  },
  {
   "property": "C132",
   "status": "proved",
   "theorems": [
    "Tinyfk.C132_sum",
    "Tinyfk.C132_inertia",
    "Tinyfk.C132_compute",
    "Tinyfk.RoundExample.hand_inertia"
   ],
   "note": "About the call right after clear_cache; otherwise the matrix may be that of an earlier configuration (C06). The exact value leaves out the rotation of <inertial> origins, as the code does (C34). The sums of the matrix products are rounded in the order of the model; Eigen may choose another one. binary64_keepsSign: rounding to nearest meets the hypothesis on signs."
  },
  {
   "property": "C133",
   "status": "proved",
   "theorems": [
    "Tinyfk.C133_total_mass",
    "Tinyfk.C133_python",
    "Tinyfk.RoundExample.hand_mass"
   ],
   "note": "The masses are added in the order of the link names, which is the order of the map the parser fills."
  },
  {
   "property": "C134",
   "status": "proved",
   "theorems": [
    "Tinyfk.C134_solve_com_fk",
    "Tinyfk.RoundExample.hand_balance"
   ],
   "note": "Same model of rounding and same assumptions as C105, and the forces are held to relative accuracy e. Forces of both signs can cancel the weight of the robot, and then no such bound holds; they are left out. For the Jacobian see C135."
  },
  {
   "property": "C135",
   "status": "proved",
   "theorems": [
    "Tinyfk.C135_solve_com_fk",
    "Tinyfk.RoundExample.hand_balance_jacobian"
   ],
   "note": "Assumptions of C107 on the robot and of C134 on the forces. Joint columns; base columns are not bounded."
  },
  {
   "property": "C136",
   "status": "proved",
   "theorems": [
    "Tinyfk.C136_solve_fk",
    "Tinyfk.C136_base_pose",
    "Tinyfk.RoundExample.hand_rpy"
   ],
   "note": "Assumptions of C94, and asin and atan2 accurate to u. The angles themselves may jump by a full turn or, beyond a right angle, to another triple, so rotations are compared. Beyond a sine of 0.9999 only the bound 1/100 is claimed; in exact arithmetic the error there is up to 0.009 (C75)."
  }
 ]
}