import Verif.Spec.RobotTable

/-!
# `data/fetch.urdf`

The file, line by line, and the robot as a table. The table was made with another XML parser; that it is what the file
says is a theorem (`C96_files`).
-/

set_option maxRecDepth 20000

namespace Tinyfk.Fetch

/-- data/fetch.urdf:1-150 -/
def text1 : List (List Char) := [
  chars "<?xml version=\"1.0\"?>",
  chars "<robot name=\"fetch\">",
  chars "  <material name=\"Black\">",
  chars "    <color rgba=\"0.4 0.4 0.4 1\"/>",
  chars "  </material>",
  chars "  <material name=\"Grey\">",
  chars "    <color rgba=\"0.901961 0.901961 0.901961 1\"/>",
  chars "  </material>",
  chars "  <material name=\"Blue\">",
  chars "    <color rgba=\"0.5 0.7 1.0 1.0\"/>",
  chars "  </material>",
  chars "  <material name=\"Red\">",
  chars "    <color rgba=\"0.8 0 0 1\" />",
  chars "  </material>",
  chars "",
  chars "  <link name=\"base_link\">",
  chars "    <inertial>",
  chars "      <origin rpy=\"0 0 0\" xyz=\"-0.0036 0.0 0.0014\" />",
  chars "      <mass value=\"70.1294\" />",
  chars "      <inertia ixx=\"1.225\" ixy=\"0.0099\" ixz=\"0.0062\" iyy=\"1.2853\" iyz=\"-0.0034\" izz=\"0.987\" />",
  chars "      <!-- <inertia ixx=\"0\" ixy=\"0\" ixz=\"0\" iyy=\"0\" iyz=\"0\" izz=\"0.987\" /> -->",
  chars "    </inertial>",
  chars "    <!-- <collision> -->",
  chars "    <!--   <origin rpy=\"0 0 0\" xyz=\"0 0 0.20\" /> -->",
  chars "    <!--   <geometry> -->",
  chars "    <!--     <cylinder length=\"0.33\" radius=\"0.28\"/> -->",
  chars "    <!--   </geometry> -->",
  chars "    <!-- </collision> -->",
  chars "  </link>",
  chars "  <link name=\"r_wheel_link\">",
  chars "    <inertial>",
  chars "      <origin rpy=\"0 0 0\" xyz=\"0 0 0\" />",
  chars "      <mass value=\"4.3542\" />",
  chars "      <inertia ixx=\"0.0045\" ixy=\"0\" ixz=\"0\" iyy=\"0.005\" iyz=\"0\" izz=\"0.0045\" />",
  chars "    </inertial>",
  chars "  </link>",
  chars "  <joint name=\"r_wheel_joint\" type=\"continuous\">",
  chars "    <origin rpy=\"-6.123E-17 0 0\" xyz=\"0.0012914 -0.18738 0.055325\" />",
  chars "    <parent link=\"base_link\" />",
  chars "    <child link=\"r_wheel_link\" />",
  chars "    <axis xyz=\"0 1 0\" />",
  chars "  <limit effort=\"8.85\" velocity=\"17.4\" /></joint>",
  chars "  <link name=\"l_wheel_link\">",
  chars "    <inertial>",
  chars "      <origin rpy=\"0 0 0\" xyz=\"0 0 0\" />",
  chars "      <mass value=\"4.3542\" />",
  chars "      <inertia ixx=\"0.0045\" ixy=\"0\" ixz=\"0\" iyy=\"0.005\" iyz=\"0\" izz=\"0.0045\" />",
  chars "    </inertial>",
  chars "  </link>",
  chars "  <joint name=\"l_wheel_joint\" type=\"continuous\">",
  chars "    <origin rpy=\"-6.123E-17 0 0\" xyz=\"0.0012914 0.18738 0.055325\" />",
  chars "    <parent link=\"base_link\" />",
  chars "    <child link=\"l_wheel_link\" />",
  chars "    <axis xyz=\"0 1 0\" />",
  chars "  <limit effort=\"8.85\" velocity=\"17.4\" /></joint>",
  chars "  <link name=\"torso_lift_link\">",
  chars "    <inertial>",
  chars "      <origin rpy=\"0 0 0\" xyz=\"-0.0013 -0.0009 0.2935\" />",
  chars "      <mass value=\"10.7796\" />",
  chars "      <inertia ixx=\"0.3354\" ixy=\"0.0\" ixz=\"-0.0162\" iyy=\"0.3354\" iyz=\"-0.0006\" izz=\"0.0954\" />",
  chars "    </inertial>",
  chars "  </link>",
  chars "  <joint name=\"torso_lift_joint\" type=\"prismatic\">",
  chars "    <origin rpy=\"-6.123E-17 0 0\" xyz=\"-0.086875 0 0.37743\" />",
  chars "    <parent link=\"base_link\" />",
  chars "    <child link=\"torso_lift_link\" />",
  chars "    <axis xyz=\"0 0 1\" />",
  chars "    <limit effort=\"450.0\" lower=\"0\" upper=\"0.38615\" velocity=\"0.1\" />",
  chars "  <dynamics damping=\"100.0\" /></joint>",
  chars "  <link name=\"head_pan_link\">",
  chars "    <inertial>",
  chars "      <origin rpy=\"0 0 0\" xyz=\"0.0321 0.0161 0.0390\" />",
  chars "      <!-- <mass value=\"2.2556\" /> -->",
  chars "      <mass value=\"70.2556\" />",
  chars "      <inertia ixx=\"0.0129\" ixy=\"0.0002\" ixz=\"0.0007\" iyy=\"0.0095\" iyz=\"-0.0\" izz=\"0.0184\" />",
  chars "    </inertial>",
  chars "  </link>",
  chars "  <joint name=\"head_pan_joint\" type=\"revolute\">",
  chars "    <origin rpy=\"0 0 0\" xyz=\"0.053125 0 0.603001417713939\" />",
  chars "    <parent link=\"torso_lift_link\" />",
  chars "    <child link=\"head_pan_link\" />",
  chars "    <axis xyz=\"0 0 1\" />",
  chars "  <limit effort=\"0.32\" lower=\"-1.57\" upper=\"1.57\" velocity=\"1.57\" /></joint>",
  chars "  <link name=\"head_tilt_link\">",
  chars "    <inertial>",
  chars "      <origin rpy=\"0 0 0\" xyz=\"0.0081 0.0025 0.0113\" />",
  chars "      <mass value=\"0.9087\" />",
  chars "      <inertia ixx=\"0.0061\" ixy=\"-0.0\" ixz=\"0.0002\" iyy=\"0.0014\" iyz=\"-0.0001\" izz=\"0.0061\" />",
  chars "    </inertial>",
  chars "  </link>",
  chars "  <joint name=\"head_tilt_joint\" type=\"revolute\">",
  chars "    <origin rpy=\"0 0 0\" xyz=\"0.14253 0 0.057999\" />",
  chars "    <parent link=\"head_pan_link\" />",
  chars "    <child link=\"head_tilt_link\" />",
  chars "    <axis xyz=\"0 1 0\" />",
  chars "    <limit effort=\"0.68\" lower=\"-0.76\" upper=\"1.45\" velocity=\"1.57\" />",
  chars "  </joint>",
  chars "  <link name=\"shoulder_pan_link\">",
  chars "    <inertial>",
  chars "      <origin rpy=\"0 0 0\" xyz=\"0.0927 -0.0056 0.0564\" />",
  chars "      <mass value=\"2.5587\" />",
  chars "      <inertia ixx=\"0.0043\" ixy=\"-0.0001\" ixz=\"0.001\" iyy=\"0.0087\" iyz=\"-0.0001\" izz=\"0.0087\" />",
  chars "    </inertial>",
  chars "  </link>",
  chars "  <joint name=\"shoulder_pan_joint\" type=\"revolute\">",
  chars "    <origin rpy=\"0 0 0\" xyz=\"0.119525 0 0.34858\" />",
  chars "    <parent link=\"torso_lift_link\" />",
  chars "    <child link=\"shoulder_pan_link\" />",
  chars "    <axis xyz=\"0 0 1\" />",
  chars "    <dynamics damping=\"1.0\" />",
  chars "    <limit effort=\"33.82\" lower=\"-1.6056\" upper=\"1.6056\" velocity=\"1.256\" />",
  chars "  </joint>",
  chars "  <link name=\"shoulder_lift_link\">",
  chars "    <inertial>",
  chars "      <origin rpy=\"0 0 0\" xyz=\"0.1432 0.0072 -0.0001\" />",
  chars "      <mass value=\"2.6615\" />",
  chars "      <inertia ixx=\"0.0028\" ixy=\"-0.0021\" ixz=\"-0.0\" iyy=\"0.0111\" iyz=\"-0.0\" izz=\"0.0112\" />",
  chars "    </inertial>",
  chars "  </link>",
  chars "  <joint name=\"shoulder_lift_joint\" type=\"revolute\">",
  chars "    <origin rpy=\"0 0 0\" xyz=\"0.117 0 0.0599999999999999\" />",
  chars "    <parent link=\"shoulder_pan_link\" />",
  chars "    <child link=\"shoulder_lift_link\" />",
  chars "    <axis xyz=\"0 1 0\" />",
  chars "    <dynamics damping=\"1.0\" />",
  chars "    <limit effort=\"131.76\" lower=\"-1.221\" upper=\"1.518\" velocity=\"1.454\" />",
  chars "  </joint>",
  chars "  <link name=\"upperarm_roll_link\">",
  chars "    <inertial>",
  chars "      <origin rpy=\"0 0 0\" xyz=\"0.1165 0.0014 0.0000\" />",
  chars "      <mass value=\"2.3311\" />",
  chars "      <inertia ixx=\"0.0019\" ixy=\"-0.0001\" ixz=\"0.0\" iyy=\"0.0045\" iyz=\"0.0\" izz=\"0.0047\" />",
  chars "    </inertial>",
  chars "  </link>",
  chars "  <joint name=\"upperarm_roll_joint\" type=\"continuous\">",
  chars "    <origin rpy=\"0 0 0\" xyz=\"0.219 0 0\" />",
  chars "    <parent link=\"shoulder_lift_link\" />",
  chars "    <child link=\"upperarm_roll_link\" />",
  chars "    <axis xyz=\"1 0 0\" />",
  chars "    <dynamics damping=\"5.0\" />",
  chars "    <limit effort=\"76.94\" velocity=\"1.571\" />",
  chars "  </joint>",
  chars "  <link name=\"elbow_flex_link\">",
  chars "    <inertial>",
  chars "      <origin rpy=\"0 0 0\" xyz=\"0.1279 0.0073 0.0000\" />",
  chars "      <mass value=\"2.1299\" />",
  chars "      <inertia ixx=\"0.0024\" ixy=\"-0.0016\" ixz=\"0.0\" iyy=\"0.0082\" iyz=\"-0.0\" izz=\"0.0084\" />",
  chars "    </inertial>",
  chars "  </link>",
  chars "  <joint name=\"elbow_flex_joint\" type=\"revolute\">"]

/-- data/fetch.urdf:151-300 -/
def text2 : List (List Char) := [
  chars "    <origin rpy=\"0 0 0\" xyz=\"0.133 0 0\" />",
  chars "    <parent link=\"upperarm_roll_link\" />",
  chars "    <child link=\"elbow_flex_link\" />",
  chars "    <axis xyz=\"0 1 0\" />",
  chars "    <dynamics damping=\"1.0\" />",
  chars "    <limit effort=\"66.18\" lower=\"-2.251\" upper=\"2.251\" velocity=\"1.521\" />",
  chars "  </joint>",
  chars "  <link name=\"forearm_roll_link\">",
  chars "    <inertial>",
  chars "      <origin rpy=\"0 0 0\" xyz=\"0.1097 -0.0266 0.0000\" />",
  chars "      <mass value=\"1.6563\" />",
  chars "      <inertia ixx=\"0.0016\" ixy=\"-0.0003\" ixz=\"0.0\" iyy=\"0.003\" iyz=\"-0.0\" izz=\"0.0035\" />",
  chars "    </inertial>",
  chars "  </link>",
  chars "  <joint name=\"forearm_roll_joint\" type=\"continuous\">",
  chars "    <origin rpy=\"0 0 0\" xyz=\"0.197 0 0\" />",
  chars "    <parent link=\"elbow_flex_link\" />",
  chars "    <child link=\"forearm_roll_link\" />",
  chars "    <axis xyz=\"1 0 0\" />",
  chars "    <dynamics damping=\"5.0\" />",
  chars "    <limit effort=\"29.35\" velocity=\"1.571\" />",
  chars "  </joint>",
  chars "  <link name=\"wrist_flex_link\">",
  chars "    <inertial>",
  chars "      <origin rpy=\"0 0 0\" xyz=\"0.0882 0.0009 -0.0001\" />",
  chars "      <mass value=\"1.725\" />",
  chars "      <inertia ixx=\"0.0018\" ixy=\"-0.0001\" ixz=\"-0.0\" iyy=\"0.0042\" iyz=\"0.0\" izz=\"0.0042\" />",
  chars "    </inertial>",
  chars "  </link>",
  chars "  <joint name=\"wrist_flex_joint\" type=\"revolute\">",
  chars "    <origin rpy=\"0 0 0\" xyz=\"0.1245 0 0\" />",
  chars "    <parent link=\"forearm_roll_link\" />",
  chars "    <child link=\"wrist_flex_link\" />",
  chars "    <axis xyz=\"0 1 0\" />",
  chars "    <dynamics damping=\"1.0\" />",
  chars "    <limit effort=\"25.7\" lower=\"-2.16\" upper=\"2.16\" velocity=\"2.268\" />",
  chars "  </joint>",
  chars "  <link name=\"wrist_roll_link\">",
  chars "    <inertial>",
  chars "      <origin rpy=\"0 0 0\" xyz=\"0.0095 0.0004 -0.0002\" />",
  chars "      <mass value=\"0.1354\" />",
  chars "      <inertia ixx=\"0.0001\" ixy=\"0.0\" ixz=\"0.0\" iyy=\"0.0001\" iyz=\"0.0\" izz=\"0.0001\" />",
  chars "    </inertial>",
  chars "  </link>",
  chars "  <joint name=\"wrist_roll_joint\" type=\"continuous\">",
  chars "    <origin rpy=\"0 0 0\" xyz=\"0.1385 0 0\" />",
  chars "    <parent link=\"wrist_flex_link\" />",
  chars "    <child link=\"wrist_roll_link\" />",
  chars "    <axis xyz=\"1 0 0\" />",
  chars "    <limit effort=\"7.36\" velocity=\"2.268\" />",
  chars "    <dynamics damping=\"5.0\" />",
  chars "  </joint>",
  chars "  <link name=\"gripper_link\">",
  chars "    <inertial>",
  chars "      <origin rpy=\"0 0 0\" xyz=\"-0.0900 -0.0001 -0.0017\" />",
  chars "      <mass value=\"1.5175\" />",
  chars "      <inertia ixx=\"0.0013\" ixy=\"-0.0\" ixz=\"0.0\" iyy=\"0.0019\" iyz=\"-0.0\" izz=\"0.0024\" />",
  chars "    </inertial>",
  chars "  </link>",
  chars "  <joint name=\"gripper_axis\" type=\"fixed\">",
  chars "    <origin rpy=\"0 0 0\" xyz=\"0.16645 0 0\" />",
  chars "    <parent link=\"wrist_roll_link\" />",
  chars "    <child link=\"gripper_link\" />",
  chars "    <axis xyz=\"0 1 0\" />",
  chars "  </joint>",
  chars "  <link name=\"r_gripper_finger_link\">",
  chars "    <inertial>",
  chars "      <origin rpy=\"0 0 0\" xyz=\"-0.01 0 0\" />",
  chars "      <mass value=\"0.0798\" />",
  chars "      <inertia ixx=\"0.002\" ixy=\"0\" ixz=\"0\" iyy=\"0.0002\" iyz=\"0\" izz=\"0.0002\" />",
  chars "    </inertial>",
  chars "  </link>",
  chars "  <joint name=\"r_gripper_finger_joint\" type=\"prismatic\">",
  chars "    <origin rpy=\"0 0 0\" xyz=\"0 0.015425 0\" />",
  chars "    <parent link=\"gripper_link\" />",
  chars "    <child link=\"r_gripper_finger_link\" />",
  chars "    <axis xyz=\"0 1 0\" />",
  chars "    <limit effort=\"60\" lower=\"0.0\" upper=\"0.05\" velocity=\"0.05\" /><dynamics damping=\"100.0\" />",
  chars "  </joint>",
  chars "",
  chars "  <link name=\"l_gripper_finger_link\">",
  chars "    <inertial>",
  chars "      <origin rpy=\"0 0 0\" xyz=\"-0.01 0 0\" />",
  chars "      <mass value=\"0.0798\" />",
  chars "      <inertia ixx=\"0.002\" ixy=\"0\" ixz=\"0\" iyy=\"0.0002\" iyz=\"0\" izz=\"0.0002\" />",
  chars "    </inertial>",
  chars "  </link>",
  chars "  <joint name=\"l_gripper_finger_joint\" type=\"prismatic\">",
  chars "    <origin rpy=\"0 0 0\" xyz=\"0 -0.015425 0\" />",
  chars "    <parent link=\"gripper_link\" />",
  chars "    <child link=\"l_gripper_finger_link\" />",
  chars "    <axis xyz=\"0 -1 0\" />",
  chars "    <limit effort=\"60\" lower=\"0.0\" upper=\"0.05\" velocity=\"0.05\" /><dynamics damping=\"100.0\" />",
  chars "  </joint>",
  chars "",
  chars "",
  chars "  <link name=\"bellows_link2\">",
  chars "    <inertial>",
  chars "      <origin rpy=\"0 0 0\" xyz=\"0.0191320000286228 -1.67219873481315E-16 -0.134861625443387\" />",
  chars "      <mass value=\"0.169374038216602\" />",
  chars "      <inertia ixx=\"0.00331159128762117\" ixy=\"-8.9230964321455E-18\" ixz=\"-5.38622201018293E-08\" iyy=\"0.00174447292786627\" iyz=\"-8.06964979976371E-17\" izz=\"0.00169417568121457\" />",
  chars "    </inertial>",
  chars "  </link>",
  chars "  <joint name=\"bellows_joint2\" type=\"fixed\">",
  chars "    <origin rpy=\"0 0 0\" xyz=\"0 0 0\" />",
  chars "    <parent link=\"torso_lift_link\" />",
  chars "    <child link=\"bellows_link2\" />",
  chars "  </joint>",
  chars "  <link name=\"estop_link\">",
  chars "    <inertial>",
  chars "      <origin rpy=\"0 0 0\" xyz=\"0.002434512737072 -0.00330608315239905 0.00665139196650039\" />",
  chars "      <mass value=\"0.00196130439134723\" />",
  chars "      <inertia ixx=\"3.02810026604417E-07\" ixy=\"-1.5862023118056E-08\" ixz=\"3.16561396557437E-08\" iyy=\"2.93322917127605E-07\" iyz=\"-4.28833522751273E-08\" izz=\"2.28513272627183E-07\" />",
  chars "    </inertial>",
  chars "  </link>",
  chars "  <joint name=\"estop_joint\" type=\"fixed\">",
  chars "    <origin rpy=\"1.5708 0 0\" xyz=\"-0.12465 0.23892 0.31127\" />",
  chars "    <parent link=\"base_link\" />",
  chars "    <child link=\"estop_link\" />",
  chars "    <axis xyz=\"0 0 0\" />",
  chars "  </joint>",
  chars "  <link name=\"laser_link\">",
  chars "    <inertial>",
  chars "      <origin rpy=\"0 0 0\" xyz=\"-0.0306228970175641 0.0007091682908278 0.0551974119471302\" />",
  chars "      <mass value=\"0.00833634573995571\" />",
  chars "      <inertia ixx=\"1.01866461240801E-06\" ixy=\"-5.88447626567756E-08\" ixz=\"7.83857244757914E-08\" iyy=\"5.10039589974707E-07\" iyz=\"-7.12664289617235E-09\" izz=\"1.28270671527309E-06\" />",
  chars "    </inertial>",
  chars "  </link>",
  chars "  <joint name=\"laser_joint\" type=\"fixed\">",
  chars "    <origin rpy=\"3.14159265359 0 0\" xyz=\"0.235 0 0.2878\" />",
  chars "    <parent link=\"base_link\" />",
  chars "    <child link=\"laser_link\" />",
  chars "    <axis xyz=\"0 0 0\" />",
  chars "  </joint>",
  chars "  <link name=\"torso_fixed_link\">",
  chars "    <inertial>",
  chars "      <origin rpy=\"0 0 0\" xyz=\"-0.0722 0.0057 0.2656\" />",
  chars "      <mass value=\"13.2775\" />",
  chars "      <inertia ixx=\"0.3861\" ixy=\"0.0015\" ixz=\"-0.0102\" iyy=\"0.3388\" iyz=\"0.0117\" izz=\"0.1018\" />",
  chars "    </inertial>",
  chars "  </link>",
  chars "  <joint name=\"torso_fixed_joint\" type=\"fixed\">",
  chars "    <origin rpy=\"-6.12303176911189E-17 0 0\" xyz=\"-0.086875 0 0.377425\" />",
  chars "    <parent link=\"base_link\" />",
  chars "    <child link=\"torso_fixed_link\" />",
  chars "    <axis xyz=\"0 1 0\" />",
  chars "  </joint>",
  chars "  <link name=\"head_camera_link\" />",
  chars "  <joint name=\"head_camera_joint\" type=\"fixed\">",
  chars "    <origin rpy=\"0 0 0\" xyz=\"0.055 0 0.0225\" />"]

/-- data/fetch.urdf:301-329 -/
def text3 : List (List Char) := [
  chars "    <parent link=\"head_tilt_link\" />",
  chars "    <child link=\"head_camera_link\" />",
  chars "  </joint>",
  chars "  <link name=\"head_camera_rgb_frame\" />",
  chars "  <joint name=\"head_camera_rgb_joint\" type=\"fixed\">",
  chars "    <origin rpy=\"0 0 0\" xyz=\"0 0.02 0\" />",
  chars "    <parent link=\"head_camera_link\" />",
  chars "    <child link=\"head_camera_rgb_frame\" />",
  chars "  </joint>",
  chars "  <link name=\"head_camera_rgb_optical_frame\" />",
  chars "  <joint name=\"head_camera_rgb_optical_joint\" type=\"fixed\">",
  chars "    <origin rpy=\"1.57079632679 0 -1.57079632679\" xyz=\"0 0 0\" />",
  chars "    <parent link=\"head_camera_rgb_frame\" />",
  chars "    <child link=\"head_camera_rgb_optical_frame\" />",
  chars "  </joint>",
  chars "  <link name=\"head_camera_depth_frame\" />",
  chars "  <joint name=\"head_camera_depth_joint\" type=\"fixed\">",
  chars "    <origin rpy=\"0 0 0\" xyz=\"0 0.045 0\" />",
  chars "    <parent link=\"head_camera_link\" />",
  chars "    <child link=\"head_camera_depth_frame\" />",
  chars "  </joint>",
  chars "  <link name=\"head_camera_depth_optical_frame\" />",
  chars "  <joint name=\"head_camera_depth_optical_joint\" type=\"fixed\">",
  chars "    <origin rpy=\"-1.57079632679 0 -1.57079632679\" xyz=\"0 0 0\" />",
  chars "    <parent link=\"head_camera_depth_frame\" />",
  chars "    <child link=\"head_camera_depth_optical_frame\" />",
  chars " </joint>",
  chars "</robot>",
  chars ""]

/-- data/fetch.urdf -/
def text : List Char := lines (text1 ++ text2 ++ text3)

/-- the links of `data/fetch.urdf`: name and inertial data (origin, mass, ixx, ixy, ixz, iyy, iyz, izz) -/
def links : List LinkRow := [
  ⟨chars "base_link", some ⟨some ⟨some ⟨-0.0036, 0.0, 0.0014⟩, some ⟨0, 0, 0⟩⟩, 70.1294, 1.225, 0.0099, 0.0062, 1.2853, -0.0034, 0.987⟩⟩,
  ⟨chars "r_wheel_link", some ⟨some ⟨some ⟨0, 0, 0⟩, some ⟨0, 0, 0⟩⟩, 4.3542, 0.0045, 0, 0, 0.005, 0, 0.0045⟩⟩,
  ⟨chars "l_wheel_link", some ⟨some ⟨some ⟨0, 0, 0⟩, some ⟨0, 0, 0⟩⟩, 4.3542, 0.0045, 0, 0, 0.005, 0, 0.0045⟩⟩,
  ⟨chars "torso_lift_link", some ⟨some ⟨some ⟨-0.0013, -0.0009, 0.2935⟩, some ⟨0, 0, 0⟩⟩, 10.7796, 0.3354, 0.0, -0.0162, 0.3354, -0.0006, 0.0954⟩⟩,
  ⟨chars "head_pan_link", some ⟨some ⟨some ⟨0.0321, 0.0161, 0.0390⟩, some ⟨0, 0, 0⟩⟩, 70.2556, 0.0129, 0.0002, 0.0007, 0.0095, -0.0, 0.0184⟩⟩,
  ⟨chars "head_tilt_link", some ⟨some ⟨some ⟨0.0081, 0.0025, 0.0113⟩, some ⟨0, 0, 0⟩⟩, 0.9087, 0.0061, -0.0, 0.0002, 0.0014, -0.0001, 0.0061⟩⟩,
  ⟨chars "shoulder_pan_link", some ⟨some ⟨some ⟨0.0927, -0.0056, 0.0564⟩, some ⟨0, 0, 0⟩⟩, 2.5587, 0.0043, -0.0001, 0.001, 0.0087, -0.0001, 0.0087⟩⟩,
  ⟨chars "shoulder_lift_link", some ⟨some ⟨some ⟨0.1432, 0.0072, -0.0001⟩, some ⟨0, 0, 0⟩⟩, 2.6615, 0.0028, -0.0021, -0.0, 0.0111, -0.0, 0.0112⟩⟩,
  ⟨chars "upperarm_roll_link", some ⟨some ⟨some ⟨0.1165, 0.0014, 0.0000⟩, some ⟨0, 0, 0⟩⟩, 2.3311, 0.0019, -0.0001, 0.0, 0.0045, 0.0, 0.0047⟩⟩,
  ⟨chars "elbow_flex_link", some ⟨some ⟨some ⟨0.1279, 0.0073, 0.0000⟩, some ⟨0, 0, 0⟩⟩, 2.1299, 0.0024, -0.0016, 0.0, 0.0082, -0.0, 0.0084⟩⟩,
  ⟨chars "forearm_roll_link", some ⟨some ⟨some ⟨0.1097, -0.0266, 0.0000⟩, some ⟨0, 0, 0⟩⟩, 1.6563, 0.0016, -0.0003, 0.0, 0.003, -0.0, 0.0035⟩⟩,
  ⟨chars "wrist_flex_link", some ⟨some ⟨some ⟨0.0882, 0.0009, -0.0001⟩, some ⟨0, 0, 0⟩⟩, 1.725, 0.0018, -0.0001, -0.0, 0.0042, 0.0, 0.0042⟩⟩,
  ⟨chars "wrist_roll_link", some ⟨some ⟨some ⟨0.0095, 0.0004, -0.0002⟩, some ⟨0, 0, 0⟩⟩, 0.1354, 0.0001, 0.0, 0.0, 0.0001, 0.0, 0.0001⟩⟩,
  ⟨chars "gripper_link", some ⟨some ⟨some ⟨-0.0900, -0.0001, -0.0017⟩, some ⟨0, 0, 0⟩⟩, 1.5175, 0.0013, -0.0, 0.0, 0.0019, -0.0, 0.0024⟩⟩,
  ⟨chars "r_gripper_finger_link", some ⟨some ⟨some ⟨-0.01, 0, 0⟩, some ⟨0, 0, 0⟩⟩, 0.0798, 0.002, 0, 0, 0.0002, 0, 0.0002⟩⟩,
  ⟨chars "l_gripper_finger_link", some ⟨some ⟨some ⟨-0.01, 0, 0⟩, some ⟨0, 0, 0⟩⟩, 0.0798, 0.002, 0, 0, 0.0002, 0, 0.0002⟩⟩,
  ⟨chars "bellows_link2", some ⟨some ⟨some ⟨0.0191320000286228, -1.67219873481315e-16, -0.134861625443387⟩, some ⟨0, 0, 0⟩⟩, 0.169374038216602, 0.00331159128762117, -8.9230964321455e-18, -5.38622201018293e-08, 0.00174447292786627, -8.06964979976371e-17, 0.00169417568121457⟩⟩,
  ⟨chars "estop_link", some ⟨some ⟨some ⟨0.002434512737072, -0.00330608315239905, 0.00665139196650039⟩, some ⟨0, 0, 0⟩⟩, 0.00196130439134723, 3.02810026604417e-07, -1.5862023118056e-08, 3.16561396557437e-08, 2.93322917127605e-07, -4.28833522751273e-08, 2.28513272627183e-07⟩⟩,
  ⟨chars "laser_link", some ⟨some ⟨some ⟨-0.0306228970175641, 0.0007091682908278, 0.0551974119471302⟩, some ⟨0, 0, 0⟩⟩, 0.00833634573995571, 1.01866461240801e-06, -5.88447626567756e-08, 7.83857244757914e-08, 5.10039589974707e-07, -7.12664289617235e-09, 1.28270671527309e-06⟩⟩,
  ⟨chars "torso_fixed_link", some ⟨some ⟨some ⟨-0.0722, 0.0057, 0.2656⟩, some ⟨0, 0, 0⟩⟩, 13.2775, 0.3861, 0.0015, -0.0102, 0.3388, 0.0117, 0.1018⟩⟩,
  ⟨chars "head_camera_link", none⟩,
  ⟨chars "head_camera_rgb_frame", none⟩,
  ⟨chars "head_camera_rgb_optical_frame", none⟩,
  ⟨chars "head_camera_depth_frame", none⟩,
  ⟨chars "head_camera_depth_optical_frame", none⟩]

/-- the joints of `data/fetch.urdf`: name, type, parent, child, origin, axis, limits (lower, upper, effort, velocity) -/
def joints : List JointRow := [
  ⟨chars "r_wheel_joint", .continuous, chars "base_link", chars "r_wheel_link", some ⟨some ⟨0.0012914, -0.18738, 0.055325⟩, some ⟨-6.123e-17, 0, 0⟩⟩,
    some ⟨0, 1, 0⟩, some ⟨none, none, 8.85, 17.4⟩⟩,
  ⟨chars "l_wheel_joint", .continuous, chars "base_link", chars "l_wheel_link", some ⟨some ⟨0.0012914, 0.18738, 0.055325⟩, some ⟨-6.123e-17, 0, 0⟩⟩,
    some ⟨0, 1, 0⟩, some ⟨none, none, 8.85, 17.4⟩⟩,
  ⟨chars "torso_lift_joint", .prismatic, chars "base_link", chars "torso_lift_link", some ⟨some ⟨-0.086875, 0, 0.37743⟩, some ⟨-6.123e-17, 0, 0⟩⟩,
    some ⟨0, 0, 1⟩, some ⟨some 0, some 0.38615, 450.0, 0.1⟩⟩,
  ⟨chars "head_pan_joint", .revolute, chars "torso_lift_link", chars "head_pan_link", some ⟨some ⟨0.053125, 0, 0.603001417713939⟩, some ⟨0, 0, 0⟩⟩,
    some ⟨0, 0, 1⟩, some ⟨some (-1.57), some 1.57, 0.32, 1.57⟩⟩,
  ⟨chars "head_tilt_joint", .revolute, chars "head_pan_link", chars "head_tilt_link", some ⟨some ⟨0.14253, 0, 0.057999⟩, some ⟨0, 0, 0⟩⟩,
    some ⟨0, 1, 0⟩, some ⟨some (-0.76), some 1.45, 0.68, 1.57⟩⟩,
  ⟨chars "shoulder_pan_joint", .revolute, chars "torso_lift_link", chars "shoulder_pan_link", some ⟨some ⟨0.119525, 0, 0.34858⟩, some ⟨0, 0, 0⟩⟩,
    some ⟨0, 0, 1⟩, some ⟨some (-1.6056), some 1.6056, 33.82, 1.256⟩⟩,
  ⟨chars "shoulder_lift_joint", .revolute, chars "shoulder_pan_link", chars "shoulder_lift_link", some ⟨some ⟨0.117, 0, 0.0599999999999999⟩, some ⟨0, 0, 0⟩⟩,
    some ⟨0, 1, 0⟩, some ⟨some (-1.221), some 1.518, 131.76, 1.454⟩⟩,
  ⟨chars "upperarm_roll_joint", .continuous, chars "shoulder_lift_link", chars "upperarm_roll_link", some ⟨some ⟨0.219, 0, 0⟩, some ⟨0, 0, 0⟩⟩,
    some ⟨1, 0, 0⟩, some ⟨none, none, 76.94, 1.571⟩⟩,
  ⟨chars "elbow_flex_joint", .revolute, chars "upperarm_roll_link", chars "elbow_flex_link", some ⟨some ⟨0.133, 0, 0⟩, some ⟨0, 0, 0⟩⟩,
    some ⟨0, 1, 0⟩, some ⟨some (-2.251), some 2.251, 66.18, 1.521⟩⟩,
  ⟨chars "forearm_roll_joint", .continuous, chars "elbow_flex_link", chars "forearm_roll_link", some ⟨some ⟨0.197, 0, 0⟩, some ⟨0, 0, 0⟩⟩,
    some ⟨1, 0, 0⟩, some ⟨none, none, 29.35, 1.571⟩⟩,
  ⟨chars "wrist_flex_joint", .revolute, chars "forearm_roll_link", chars "wrist_flex_link", some ⟨some ⟨0.1245, 0, 0⟩, some ⟨0, 0, 0⟩⟩,
    some ⟨0, 1, 0⟩, some ⟨some (-2.16), some 2.16, 25.7, 2.268⟩⟩,
  ⟨chars "wrist_roll_joint", .continuous, chars "wrist_flex_link", chars "wrist_roll_link", some ⟨some ⟨0.1385, 0, 0⟩, some ⟨0, 0, 0⟩⟩,
    some ⟨1, 0, 0⟩, some ⟨none, none, 7.36, 2.268⟩⟩,
  ⟨chars "gripper_axis", .fixed, chars "wrist_roll_link", chars "gripper_link", some ⟨some ⟨0.16645, 0, 0⟩, some ⟨0, 0, 0⟩⟩,
    some ⟨0, 1, 0⟩, none⟩,
  ⟨chars "r_gripper_finger_joint", .prismatic, chars "gripper_link", chars "r_gripper_finger_link", some ⟨some ⟨0, 0.015425, 0⟩, some ⟨0, 0, 0⟩⟩,
    some ⟨0, 1, 0⟩, some ⟨some 0.0, some 0.05, 60, 0.05⟩⟩,
  ⟨chars "l_gripper_finger_joint", .prismatic, chars "gripper_link", chars "l_gripper_finger_link", some ⟨some ⟨0, -0.015425, 0⟩, some ⟨0, 0, 0⟩⟩,
    some ⟨0, -1, 0⟩, some ⟨some 0.0, some 0.05, 60, 0.05⟩⟩,
  ⟨chars "bellows_joint2", .fixed, chars "torso_lift_link", chars "bellows_link2", some ⟨some ⟨0, 0, 0⟩, some ⟨0, 0, 0⟩⟩,
    none, none⟩,
  ⟨chars "estop_joint", .fixed, chars "base_link", chars "estop_link", some ⟨some ⟨-0.12465, 0.23892, 0.31127⟩, some ⟨1.5708, 0, 0⟩⟩,
    some ⟨0, 0, 0⟩, none⟩,
  ⟨chars "laser_joint", .fixed, chars "base_link", chars "laser_link", some ⟨some ⟨0.235, 0, 0.2878⟩, some ⟨3.14159265359, 0, 0⟩⟩,
    some ⟨0, 0, 0⟩, none⟩,
  ⟨chars "torso_fixed_joint", .fixed, chars "base_link", chars "torso_fixed_link", some ⟨some ⟨-0.086875, 0, 0.377425⟩, some ⟨-6.12303176911189e-17, 0, 0⟩⟩,
    some ⟨0, 1, 0⟩, none⟩,
  ⟨chars "head_camera_joint", .fixed, chars "head_tilt_link", chars "head_camera_link", some ⟨some ⟨0.055, 0, 0.0225⟩, some ⟨0, 0, 0⟩⟩,
    none, none⟩,
  ⟨chars "head_camera_rgb_joint", .fixed, chars "head_camera_link", chars "head_camera_rgb_frame", some ⟨some ⟨0, 0.02, 0⟩, some ⟨0, 0, 0⟩⟩,
    none, none⟩,
  ⟨chars "head_camera_rgb_optical_joint", .fixed, chars "head_camera_rgb_frame", chars "head_camera_rgb_optical_frame", some ⟨some ⟨0, 0, 0⟩, some ⟨1.57079632679, 0, -1.57079632679⟩⟩,
    none, none⟩,
  ⟨chars "head_camera_depth_joint", .fixed, chars "head_camera_link", chars "head_camera_depth_frame", some ⟨some ⟨0, 0.045, 0⟩, some ⟨0, 0, 0⟩⟩,
    none, none⟩,
  ⟨chars "head_camera_depth_optical_joint", .fixed, chars "head_camera_depth_frame", chars "head_camera_depth_optical_frame", some ⟨some ⟨0, 0, 0⟩, some ⟨-1.57079632679, 0, -1.57079632679⟩⟩,
    none, none⟩]

/-- the link without parent -/
def root : List Char := chars "base_link"

/-- the links, parents before children -/
def order : List (List Char) := [
  chars "base_link",
  chars "r_wheel_link",
  chars "l_wheel_link",
  chars "torso_lift_link",
  chars "estop_link",
  chars "laser_link",
  chars "torso_fixed_link",
  chars "head_pan_link",
  chars "shoulder_pan_link",
  chars "bellows_link2",
  chars "head_tilt_link",
  chars "shoulder_lift_link",
  chars "head_camera_link",
  chars "upperarm_roll_link",
  chars "head_camera_rgb_frame",
  chars "head_camera_depth_frame",
  chars "elbow_flex_link",
  chars "head_camera_rgb_optical_frame",
  chars "head_camera_depth_optical_frame",
  chars "forearm_roll_link",
  chars "wrist_flex_link",
  chars "wrist_roll_link",
  chars "gripper_link",
  chars "r_gripper_finger_link",
  chars "l_gripper_finger_link"]

end Tinyfk.Fetch
