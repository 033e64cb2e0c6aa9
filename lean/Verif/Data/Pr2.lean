import Verif.Spec.RobotTable

/-!
# `data/pr2.urdf`

The file, line by line, and the robot as a table. The table was made with another XML parser; that it is what the file
says is a theorem (`C96_files`).
-/

set_option maxRecDepth 20000

namespace Tinyfk.Pr2

/-- data/pr2.urdf:1-150 -/
def text1 : List (List Char) := [
  chars "<?xml version=\"1.0\" ?>",
  chars "<robot name=\"pr2\" xmlns:xacro=\"http://ros.org/wiki/xacro\">",
  chars "  <material name=\"Blue\">",
  chars "    <color rgba=\"0.0 0.0 0.8 1.0\"/>",
  chars "  </material>",
  chars "  <material name=\"Green\">",
  chars "    <color rgba=\"0.0 0.8 0.0 1.0\"/>",
  chars "  </material>",
  chars "  <material name=\"Grey\">",
  chars "    <color rgba=\"0.7 0.7 0.7 1.0\"/>",
  chars "  </material>",
  chars "  <material name=\"Grey2\">",
  chars "    <color rgba=\"0.9 0.9 0.9 1.0\"/>",
  chars "  </material>",
  chars "  <material name=\"Red\">",
  chars "    <color rgba=\"0.8 0.0 0.0 1.0\"/>",
  chars "  </material>",
  chars "  <material name=\"White\">",
  chars "    <color rgba=\"1.0 1.0 1.0 1.0\"/>",
  chars "  </material>",
  chars "  <material name=\"Black\">",
  chars "    <color rgba=\"0.1 0.1 0.1 1.0\"/>",
  chars "  </material>",
  chars "  <material name=\"LightGrey\">",
  chars "    <color rgba=\"0.6 0.6 0.6 1.0\"/>",
  chars "  </material>",
  chars "  <material name=\"Caster\">",
  chars "    <color rgba=\"0.6 0.6 0.6 1.0\"/>",
  chars "  </material>",
  chars "  <material name=\"Wheel_l\">",
  chars "    <color rgba=\"0.6 0.6 0.6 1.0\"/>",
  chars "  </material>",
  chars "  <material name=\"Wheel_r\">",
  chars "    <color rgba=\"0.6 0.6 0.6 1.0\"/>",
  chars "  </material>",
  chars "  <material name=\"RollLinks\">",
  chars "    <color rgba=\"0.6 0.6 0.6 1.0\"/>",
  chars "  </material>",
  chars "  <!-- Now we can start using the macros included above to define the actual PR2 -->",
  chars "  <link name=\"base_link\">",
  chars "    <inertial>",
  chars "      <mass value=\"116.0\"/>",
  chars "      <origin xyz=\"-0.061 0.0 0.1465\"/>",
  chars "      <inertia ixx=\"5.652232699207\" ixy=\"-0.009719934438\" ixz=\"1.293988226423\" iyy=\"5.669473158652\" iyz=\"-0.007379583694\" izz=\"3.683196351726\"/>",
  chars "    </inertial>",
  chars "  </link>",
  chars "  <!-- base_footprint is a fictitious link(frame) that is on the ground right below base_link origin,",
  chars "         navigation stack dedpends on this frame -->",
  chars "  <link name=\"base_footprint\">",
  chars "    <inertial>",
  chars "      <mass value=\"1.0\"/>",
  chars "      <origin xyz=\"0 0 0\"/>",
  chars "      <inertia ixx=\"0.01\" ixy=\"0.0\" ixz=\"0.0\" iyy=\"0.01\" iyz=\"0.0\" izz=\"0.01\"/>",
  chars "    </inertial>",
  chars "  </link>",
  chars "  <joint name=\"base_footprint_joint\" type=\"fixed\">",
  chars "    <origin rpy=\"0 0 0\" xyz=\"0 0 0.051\"/>",
  chars "    <child link=\"base_link\"/>",
  chars "    <parent link=\"base_footprint\"/>",
  chars "  </joint>",
  chars "  <!-- visualize bellow -->",
  chars "  <link name=\"base_bellow_link\">",
  chars "    <inertial>",
  chars "      <mass value=\"1.0\"/>",
  chars "      <origin xyz=\"0 0 0\"/>",
  chars "      <inertia ixx=\"0.01\" ixy=\"0.0\" ixz=\"0.0\" iyy=\"0.01\" iyz=\"0.0\" izz=\"0.01\"/>",
  chars "    </inertial>",
  chars "  </link>",
  chars "  <joint name=\"base_bellow_joint\" type=\"fixed\">",
  chars "    <origin rpy=\"0 0 0\" xyz=\"-0.29 0 0.8\"/>",
  chars "    <parent link=\"base_link\"/>",
  chars "    <child link=\"base_bellow_link\"/>",
  chars "  </joint>",
  chars "  <joint name=\"base_laser_joint\" type=\"fixed\">",
  chars "    <axis xyz=\"0 1 0\"/>",
  chars "    <origin rpy=\"0 0 0\" xyz=\"0.275 0.0 0.252\"/>",
  chars "    <parent link=\"base_link\"/>",
  chars "    <child link=\"base_laser_link\"/>",
  chars "  </joint>",
  chars "  <link name=\"base_laser_link\" type=\"laser\">",
  chars "    <inertial>",
  chars "      <mass value=\"0.001\"/>",
  chars "      <origin rpy=\"0 0 0\" xyz=\"0 0 0\"/>",
  chars "      <inertia ixx=\"0.0001\" ixy=\"0\" ixz=\"0\" iyy=\"0.000001\" iyz=\"0\" izz=\"0.0001\"/>",
  chars "    </inertial>",
  chars "  </link>",
  chars "  <joint name=\"fl_caster_rotation_joint\" type=\"continuous\">",
  chars "    <axis xyz=\"0 0 1\"/>",
  chars "    <limit effort=\"6.5\" velocity=\"10\"/>",
  chars "    <!-- alpha tested velocity and effort limits -->",
  chars "    <safety_controller k_velocity=\"10\"/>",
  chars "    <calibration rising=\"-0.785398163397\"/>",
  chars "    <dynamics damping=\"1.0\" friction=\"0.0\"/>",
  chars "    <origin rpy=\"0 0 0\" xyz=\"0.2246 0.2246 0.0282\"/>",
  chars "    <parent link=\"base_link\"/>",
  chars "    <child link=\"fl_caster_rotation_link\"/>",
  chars "  </joint>",
  chars "  <link name=\"fl_caster_rotation_link\">",
  chars "    <inertial>",
  chars "      <mass value=\"3.473082\"/>",
  chars "      <origin xyz=\"0 0 0.07\"/>",
  chars "      <inertia ixx=\"0.012411765597\" ixy=\"-0.000711733678\" ixz=\"0.00050272983\" iyy=\"0.015218160428\" iyz=\"-0.000004273467\" izz=\"0.011763977943\"/>",
  chars "    </inertial>",
  chars "  </link>",
  chars "  <joint name=\"fl_caster_l_wheel_joint\" type=\"continuous\">",
  chars "    <axis xyz=\"0 1 0\"/>",
  chars "    <limit effort=\"7\" velocity=\"15\"/>",
  chars "    <!-- alpha tested effort and velocity limits -->",
  chars "    <safety_controller k_velocity=\"10\"/>",
  chars "    <dynamics damping=\"1.0\" friction=\"0.0\"/>",
  chars "    <origin rpy=\"0 0 0\" xyz=\"0 0.049 0\"/>",
  chars "    <parent link=\"fl_caster_rotation_link\"/>",
  chars "    <child link=\"fl_caster_l_wheel_link\"/>",
  chars "  </joint>",
  chars "  <link name=\"fl_caster_l_wheel_link\">",
  chars "    <inertial>",
  chars "      <mass value=\"0.44036\"/>",
  chars "      <origin xyz=\"0 0 0\"/>",
  chars "      <inertia ixx=\"0.012411765597\" ixy=\"-0.000711733678\" ixz=\"0.00050272983\" iyy=\"0.015218160428\" iyz=\"-0.000004273467\" izz=\"0.011763977943\"/>",
  chars "    </inertial>",
  chars "  </link>",
  chars "  <joint name=\"fl_caster_r_wheel_joint\" type=\"continuous\">",
  chars "    <axis xyz=\"0 1 0\"/>",
  chars "    <limit effort=\"7\" velocity=\"15\"/>",
  chars "    <!-- alpha tested effort and velocity limits -->",
  chars "    <safety_controller k_velocity=\"10\"/>",
  chars "    <dynamics damping=\"1.0\" friction=\"0.0\"/>",
  chars "    <origin rpy=\"0 0 0\" xyz=\"0 -0.049 0\"/>",
  chars "    <parent link=\"fl_caster_rotation_link\"/>",
  chars "    <child link=\"fl_caster_r_wheel_link\"/>",
  chars "  </joint>",
  chars "  <link name=\"fl_caster_r_wheel_link\">",
  chars "    <inertial>",
  chars "      <mass value=\"0.44036\"/>",
  chars "      <origin xyz=\"0 0 0\"/>",
  chars "      <inertia ixx=\"0.012411765597\" ixy=\"-0.000711733678\" ixz=\"0.00050272983\" iyy=\"0.015218160428\" iyz=\"-0.000004273467\" izz=\"0.011763977943\"/>",
  chars "    </inertial>",
  chars "  </link>",
  chars "  <joint name=\"fr_caster_rotation_joint\" type=\"continuous\">",
  chars "    <axis xyz=\"0 0 1\"/>",
  chars "    <limit effort=\"6.5\" velocity=\"10\"/>",
  chars "    <!-- alpha tested velocity and effort limits -->",
  chars "    <safety_controller k_velocity=\"10\"/>",
  chars "    <calibration rising=\"-0.785398163397\"/>",
  chars "    <dynamics damping=\"1.0\" friction=\"0.0\"/>",
  chars "    <origin rpy=\"0 0 0\" xyz=\"0.2246 -0.2246 0.0282\"/>",
  chars "    <parent link=\"base_link\"/>",
  chars "    <child link=\"fr_caster_rotation_link\"/>",
  chars "  </joint>",
  chars "  <link name=\"fr_caster_rotation_link\">"]

/-- data/pr2.urdf:151-300 -/
def text2 : List (List Char) := [
  chars "    <inertial>",
  chars "      <mass value=\"3.473082\"/>",
  chars "      <origin xyz=\"0 0 0.07\"/>",
  chars "      <inertia ixx=\"0.012411765597\" ixy=\"-0.000711733678\" ixz=\"0.00050272983\" iyy=\"0.015218160428\" iyz=\"-0.000004273467\" izz=\"0.011763977943\"/>",
  chars "    </inertial>",
  chars "  </link>",
  chars "  <joint name=\"fr_caster_l_wheel_joint\" type=\"continuous\">",
  chars "    <axis xyz=\"0 1 0\"/>",
  chars "    <limit effort=\"7\" velocity=\"15\"/>",
  chars "    <!-- alpha tested effort and velocity limits -->",
  chars "    <safety_controller k_velocity=\"10\"/>",
  chars "    <dynamics damping=\"1.0\" friction=\"0.0\"/>",
  chars "    <origin rpy=\"0 0 0\" xyz=\"0 0.049 0\"/>",
  chars "    <parent link=\"fr_caster_rotation_link\"/>",
  chars "    <child link=\"fr_caster_l_wheel_link\"/>",
  chars "  </joint>",
  chars "  <link name=\"fr_caster_l_wheel_link\">",
  chars "    <inertial>",
  chars "      <mass value=\"0.44036\"/>",
  chars "      <origin xyz=\"0 0 0\"/>",
  chars "      <inertia ixx=\"0.012411765597\" ixy=\"-0.000711733678\" ixz=\"0.00050272983\" iyy=\"0.015218160428\" iyz=\"-0.000004273467\" izz=\"0.011763977943\"/>",
  chars "    </inertial>",
  chars "  </link>",
  chars "  <joint name=\"fr_caster_r_wheel_joint\" type=\"continuous\">",
  chars "    <axis xyz=\"0 1 0\"/>",
  chars "    <limit effort=\"7\" velocity=\"15\"/>",
  chars "    <!-- alpha tested effort and velocity limits -->",
  chars "    <safety_controller k_velocity=\"10\"/>",
  chars "    <dynamics damping=\"1.0\" friction=\"0.0\"/>",
  chars "    <origin rpy=\"0 0 0\" xyz=\"0 -0.049 0\"/>",
  chars "    <parent link=\"fr_caster_rotation_link\"/>",
  chars "    <child link=\"fr_caster_r_wheel_link\"/>",
  chars "  </joint>",
  chars "  <link name=\"fr_caster_r_wheel_link\">",
  chars "    <inertial>",
  chars "      <mass value=\"0.44036\"/>",
  chars "      <origin xyz=\"0 0 0\"/>",
  chars "      <inertia ixx=\"0.012411765597\" ixy=\"-0.000711733678\" ixz=\"0.00050272983\" iyy=\"0.015218160428\" iyz=\"-0.000004273467\" izz=\"0.011763977943\"/>",
  chars "    </inertial>",
  chars "  </link>",
  chars "  <joint name=\"bl_caster_rotation_joint\" type=\"continuous\">",
  chars "    <axis xyz=\"0 0 1\"/>",
  chars "    <limit effort=\"6.5\" velocity=\"10\"/>",
  chars "    <!-- alpha tested velocity and effort limits -->",
  chars "    <safety_controller k_velocity=\"10\"/>",
  chars "    <calibration rising=\"2.35619449019\"/>",
  chars "    <dynamics damping=\"1.0\" friction=\"0.0\"/>",
  chars "    <origin rpy=\"0 0 0\" xyz=\"-0.2246 0.2246 0.0282\"/>",
  chars "    <parent link=\"base_link\"/>",
  chars "    <child link=\"bl_caster_rotation_link\"/>",
  chars "  </joint>",
  chars "  <link name=\"bl_caster_rotation_link\">",
  chars "    <inertial>",
  chars "      <mass value=\"3.473082\"/>",
  chars "      <origin xyz=\"0 0 0.07\"/>",
  chars "      <inertia ixx=\"0.012411765597\" ixy=\"-0.000711733678\" ixz=\"0.00050272983\" iyy=\"0.015218160428\" iyz=\"-0.000004273467\" izz=\"0.011763977943\"/>",
  chars "    </inertial>",
  chars "  </link>",
  chars "  <joint name=\"bl_caster_l_wheel_joint\" type=\"continuous\">",
  chars "    <axis xyz=\"0 1 0\"/>",
  chars "    <limit effort=\"7\" velocity=\"15\"/>",
  chars "    <!-- alpha tested effort and velocity limits -->",
  chars "    <safety_controller k_velocity=\"10\"/>",
  chars "    <dynamics damping=\"1.0\" friction=\"0.0\"/>",
  chars "    <origin rpy=\"0 0 0\" xyz=\"0 0.049 0\"/>",
  chars "    <parent link=\"bl_caster_rotation_link\"/>",
  chars "    <child link=\"bl_caster_l_wheel_link\"/>",
  chars "  </joint>",
  chars "  <link name=\"bl_caster_l_wheel_link\">",
  chars "    <inertial>",
  chars "      <mass value=\"0.44036\"/>",
  chars "      <origin xyz=\"0 0 0\"/>",
  chars "      <inertia ixx=\"0.012411765597\" ixy=\"-0.000711733678\" ixz=\"0.00050272983\" iyy=\"0.015218160428\" iyz=\"-0.000004273467\" izz=\"0.011763977943\"/>",
  chars "    </inertial>",
  chars "  </link>",
  chars "  <joint name=\"bl_caster_r_wheel_joint\" type=\"continuous\">",
  chars "    <axis xyz=\"0 1 0\"/>",
  chars "    <limit effort=\"7\" velocity=\"15\"/>",
  chars "    <!-- alpha tested effort and velocity limits -->",
  chars "    <safety_controller k_velocity=\"10\"/>",
  chars "    <dynamics damping=\"1.0\" friction=\"0.0\"/>",
  chars "    <origin rpy=\"0 0 0\" xyz=\"0 -0.049 0\"/>",
  chars "    <parent link=\"bl_caster_rotation_link\"/>",
  chars "    <child link=\"bl_caster_r_wheel_link\"/>",
  chars "  </joint>",
  chars "  <link name=\"bl_caster_r_wheel_link\">",
  chars "    <inertial>",
  chars "      <mass value=\"0.44036\"/>",
  chars "      <origin xyz=\"0 0 0\"/>",
  chars "      <inertia ixx=\"0.012411765597\" ixy=\"-0.000711733678\" ixz=\"0.00050272983\" iyy=\"0.015218160428\" iyz=\"-0.000004273467\" izz=\"0.011763977943\"/>",
  chars "    </inertial>",
  chars "  </link>",
  chars "  <joint name=\"br_caster_rotation_joint\" type=\"continuous\">",
  chars "    <axis xyz=\"0 0 1\"/>",
  chars "    <limit effort=\"6.5\" velocity=\"10\"/>",
  chars "    <!-- alpha tested velocity and effort limits -->",
  chars "    <safety_controller k_velocity=\"10\"/>",
  chars "    <calibration rising=\"2.35619449019\"/>",
  chars "    <dynamics damping=\"1.0\" friction=\"0.0\"/>",
  chars "    <origin rpy=\"0 0 0\" xyz=\"-0.2246 -0.2246 0.0282\"/>",
  chars "    <parent link=\"base_link\"/>",
  chars "    <child link=\"br_caster_rotation_link\"/>",
  chars "  </joint>",
  chars "  <link name=\"br_caster_rotation_link\">",
  chars "    <inertial>",
  chars "      <mass value=\"3.473082\"/>",
  chars "      <origin xyz=\"0 0 0.07\"/>",
  chars "      <inertia ixx=\"0.012411765597\" ixy=\"-0.000711733678\" ixz=\"0.00050272983\" iyy=\"0.015218160428\" iyz=\"-0.000004273467\" izz=\"0.011763977943\"/>",
  chars "    </inertial>",
  chars "  </link>",
  chars "  <joint name=\"br_caster_l_wheel_joint\" type=\"continuous\">",
  chars "    <axis xyz=\"0 1 0\"/>",
  chars "    <limit effort=\"7\" velocity=\"15\"/>",
  chars "    <!-- alpha tested effort and velocity limits -->",
  chars "    <safety_controller k_velocity=\"10\"/>",
  chars "    <dynamics damping=\"1.0\" friction=\"0.0\"/>",
  chars "    <origin rpy=\"0 0 0\" xyz=\"0 0.049 0\"/>",
  chars "    <parent link=\"br_caster_rotation_link\"/>",
  chars "    <child link=\"br_caster_l_wheel_link\"/>",
  chars "  </joint>",
  chars "  <link name=\"br_caster_l_wheel_link\">",
  chars "    <inertial>",
  chars "      <mass value=\"0.44036\"/>",
  chars "      <origin xyz=\"0 0 0\"/>",
  chars "      <inertia ixx=\"0.012411765597\" ixy=\"-0.000711733678\" ixz=\"0.00050272983\" iyy=\"0.015218160428\" iyz=\"-0.000004273467\" izz=\"0.011763977943\"/>",
  chars "    </inertial>",
  chars "  </link>",
  chars "  <joint name=\"br_caster_r_wheel_joint\" type=\"continuous\">",
  chars "    <axis xyz=\"0 1 0\"/>",
  chars "    <limit effort=\"7\" velocity=\"15\"/>",
  chars "    <!-- alpha tested effort and velocity limits -->",
  chars "    <safety_controller k_velocity=\"10\"/>",
  chars "    <dynamics damping=\"1.0\" friction=\"0.0\"/>",
  chars "    <origin rpy=\"0 0 0\" xyz=\"0 -0.049 0\"/>",
  chars "    <parent link=\"br_caster_rotation_link\"/>",
  chars "    <child link=\"br_caster_r_wheel_link\"/>",
  chars "  </joint>",
  chars "  <link name=\"br_caster_r_wheel_link\">",
  chars "    <inertial>",
  chars "      <mass value=\"0.44036\"/>",
  chars "      <origin xyz=\"0 0 0\"/>",
  chars "      <inertia ixx=\"0.012411765597\" ixy=\"-0.000711733678\" ixz=\"0.00050272983\" iyy=\"0.015218160428\" iyz=\"-0.000004273467\" izz=\"0.011763977943\"/>",
  chars "    </inertial>",
  chars "  </link>",
  chars "  <joint name=\"torso_lift_joint\" type=\"prismatic\">",
  chars "    <axis xyz=\"0 0 1\"/>",
  chars "    <limit effort=\"10000\" lower=\"0.0\" upper=\"0.33\" velocity=\"0.013\"/>",
  chars "    <!-- alpha tested velocity and effort limits -->",
  chars "    <safety_controller k_position=\"100\" k_velocity=\"2000000\" soft_lower_limit=\"0.0115\" soft_upper_limit=\"0.325\"/>",
  chars "    <calibration falling=\"0.00475\"/>"]

/-- data/pr2.urdf:301-450 -/
def text3 : List (List Char) := [
  chars "    <dynamics damping=\"20000.0\"/>",
  chars "    <origin rpy=\"0 0 0\" xyz=\"-0.05 0 0.739675\"/>",
  chars "    <parent link=\"base_link\"/>",
  chars "    <child link=\"torso_lift_link\"/>",
  chars "  </joint>",
  chars "  <link name=\"torso_lift_link\">",
  chars "    <inertial>",
  chars "      <mass value=\"36.248046\"/>",
  chars "      <origin xyz=\"-0.1 0 -0.0885\"/>",
  chars "      <inertia ixx=\"2.771653750257\" ixy=\"0.004284522609\" ixz=\"-0.160418504506\" iyy=\"2.510019507959\" iyz=\"0.029664468704\" izz=\"0.526432355569\"/>",
  chars "    </inertial>",
  chars "  </link>",
  chars "  <joint name=\"l_torso_lift_side_plate_joint\" type=\"fixed\">",
  chars "    <origin xyz=\"0.0535 0.209285 0.176625\"/>",
  chars "    <!-- location of bottom front bolt hole location -->",
  chars "    <parent link=\"torso_lift_link\"/>",
  chars "    <child link=\"l_torso_lift_side_plate_link\"/>",
  chars "  </joint>",
  chars "  <link name=\"l_torso_lift_side_plate_link\">",
  chars "    <inertial>",
  chars "      <mass value=\"0.1\"/>",
  chars "      <origin xyz=\"-0.0625 0.0 0.05\"/>",
  chars "      <!-- center of the 12.5cm by 10cm bolt hole pattern -->",
  chars "      <inertia ixx=\"0.001\" ixy=\"0.0\" ixz=\"0.0\" iyy=\"0.001\" iyz=\"0.0\" izz=\"0.001\"/>",
  chars "    </inertial>",
  chars "  </link>",
  chars "  <joint name=\"r_torso_lift_side_plate_joint\" type=\"fixed\">",
  chars "    <origin xyz=\"0.0535  -0.209285 0.176625\"/>",
  chars "    <!-- location of bottom front bolt hole location -->",
  chars "    <parent link=\"torso_lift_link\"/>",
  chars "    <child link=\"r_torso_lift_side_plate_link\"/>",
  chars "  </joint>",
  chars "  <link name=\"r_torso_lift_side_plate_link\">",
  chars "    <inertial>",
  chars "      <mass value=\"0.1\"/>",
  chars "      <origin xyz=\"-0.0625 0.0 0.05\"/>",
  chars "      <!-- center of the 12.5cm by 10cm bolt hole pattern -->",
  chars "      <inertia ixx=\"0.001\" ixy=\"0.0\" ixz=\"0.0\" iyy=\"0.001\" iyz=\"0.0\" izz=\"0.001\"/>",
  chars "    </inertial>",
  chars "  </link>",
  chars "  <!-- actuated motor screw joint -->",
  chars "  <link name=\"torso_lift_motor_screw_link\">",
  chars "    <inertial>",
  chars "      <mass value=\"1.0\"/>",
  chars "      <origin rpy=\"0 0 0\" xyz=\"0 0 0\"/>",
  chars "      <inertia ixx=\"0.001\" ixy=\"0.0\" ixz=\"0.0\" iyy=\"0.001\" iyz=\"0.0\" izz=\"0.001\"/>",
  chars "    </inertial>",
  chars "    <!-- for debugging only",
  chars "      <visual>",
  chars "        <origin xyz=\"0 0 0\" rpy=\"0 0 0\" />",
  chars "        <geometry>",
  chars "          <box size=\"0.5 0.7 0.01\" />",
  chars "        </geometry>",
  chars "      </visual>",
  chars "      <collision>",
  chars "        <origin xyz=\"0 0 0\" rpy=\"0 0 0\" />",
  chars "        <geometry>",
  chars "          <box size=\"0.5 0.7 0.01\" />",
  chars "        </geometry>",
  chars "      </collision>",
  chars "      -->",
  chars "  </link>",
  chars "  <joint name=\"torso_lift_motor_screw_joint\" type=\"continuous\">",
  chars "    <origin xyz=\"-0.15 0.0 0.7\"/>",
  chars "    <axis xyz=\"0 0 1\"/>",
  chars "    <parent link=\"base_link\"/>",
  chars "    <child link=\"torso_lift_motor_screw_link\"/>",
  chars "    <dynamics damping=\"0.0001\"/>",
  chars "  </joint>",
  chars "  <joint name=\"imu_joint\" type=\"fixed\">",
  chars "    <axis xyz=\"0 1 0\"/>",
  chars "    <origin rpy=\"0 3.14159265359 0\" xyz=\"-0.02977 -0.1497 0.164\"/>",
  chars "    <parent link=\"torso_lift_link\"/>",
  chars "    <child link=\"imu_link\"/>",
  chars "  </joint>",
  chars "  <link name=\"imu_link\">",
  chars "    <inertial>",
  chars "      <mass value=\"0.001\"/>",
  chars "      <origin rpy=\"0 0 0\" xyz=\"0 0 0\"/>",
  chars "      <inertia ixx=\"0.0001\" ixy=\"0\" ixz=\"0\" iyy=\"0.000001\" iyz=\"0\" izz=\"0.0001\"/>",
  chars "    </inertial>",
  chars "  </link>",
  chars "  <joint name=\"head_pan_joint\" type=\"revolute\">",
  chars "    <axis xyz=\"0 0 1\"/>",
  chars "    <limit effort=\"2.645\" lower=\"-3.007\" upper=\"3.007\" velocity=\"6\"/>",
  chars "    <!-- alpha tested velocity and effort limits -->",
  chars "    <safety_controller k_position=\"100\" k_velocity=\"1.5\" soft_lower_limit=\"-2.857\" soft_upper_limit=\"2.857\"/>",
  chars "    <calibration rising=\"0.0\"/>",
  chars "    <dynamics damping=\"0.5\"/>",
  chars "    <origin rpy=\"0.0 0.0 0.0\" xyz=\"-0.01707 0.0 0.38145\"/>",
  chars "    <parent link=\"torso_lift_link\"/>",
  chars "    <child link=\"head_pan_link\"/>",
  chars "  </joint>",
  chars "  <link name=\"head_pan_link\">",
  chars "    <inertial>",
  chars "      <mass value=\"6.339\"/>",
  chars "      <!-- mass/cog/moi updated per 100505_link_data.xls -->",
  chars "      <origin rpy=\"0 0 0\" xyz=\"0.010907 0.031693 0.090507\"/>",
  chars "      <inertia ixx=\"0.032497592\" ixy=\"0.00063604088\" ixz=\"0.0025851534\" iyy=\"0.046545627\" iyz=\"-0.0024534295\" izz=\"0.057652724\"/>",
  chars "    </inertial>",
  chars "  </link>",
  chars "  <joint name=\"head_tilt_joint\" type=\"revolute\">",
  chars "    <axis xyz=\"0 1 0\"/>",
  chars "    <limit effort=\"18\" lower=\"-0.471238\" upper=\"1.39626\" velocity=\"5\"/>",
  chars "    <!-- alpha tested velocity and effort limits -->",
  chars "    <safety_controller k_position=\"100\" k_velocity=\"3.0\" soft_lower_limit=\"-0.3712\" soft_upper_limit=\"1.29626\"/>",
  chars "    <calibration falling=\"0.0\"/>",
  chars "    <dynamics damping=\"10.0\"/>",
  chars "    <origin rpy=\"0 0 0\" xyz=\"0.068 0 0\"/>",
  chars "    <parent link=\"head_pan_link\"/>",
  chars "    <child link=\"head_tilt_link\"/>",
  chars "  </joint>",
  chars "  <link name=\"head_tilt_link\">",
  chars "    <inertial>",
  chars "      <mass value=\"4.479\"/>",
  chars "      <!-- mass/cog/moi updated per 100505_link_data.xls -->",
  chars "      <origin rpy=\"0 0 0\" xyz=\"0.001716 -0.019556 0.055002\"/>",
  chars "      <inertia ixx=\"0.024223222\" ixy=\"0.00062063507\" ixz=\"-0.000096909696\" iyy=\"0.054723086\" iyz=\"0.00279702400\" izz=\"0.067306377\"/>",
  chars "    </inertial>",
  chars "  </link>",
  chars "  <!-- Head plate frame -->",
  chars "  <joint name=\"head_plate_frame_joint\" type=\"fixed\">",
  chars "    <origin rpy=\"0 0 0\" xyz=\"0.0232 0 0.0645\"/>",
  chars "    <parent link=\"head_tilt_link\"/>",
  chars "    <child link=\"head_plate_frame\"/>",
  chars "  </joint>",
  chars "  <link name=\"head_plate_frame\">",
  chars "    <inertial>",
  chars "      <mass value=\"0.01\"/>",
  chars "      <origin rpy=\"0 0 0\" xyz=\"0 0 0\"/>",
  chars "      <inertia ixx=\"0.001\" ixy=\"0.0\" ixz=\"0.0\" iyy=\"0.001\" iyz=\"0.0\" izz=\"0.001\"/>",
  chars "    </inertial>",
  chars "  </link>",
  chars "  <joint name=\"sensor_mount_frame_joint\" type=\"fixed\">",
  chars "    <origin rpy=\"0 0 0\" xyz=\"0.0 0.0 0.0\"/>",
  chars "    <parent link=\"head_plate_frame\"/>",
  chars "    <child link=\"sensor_mount_link\"/>",
  chars "  </joint>",
  chars "  <link name=\"sensor_mount_link\">",
  chars "    <inertial>",
  chars "      <!-- Needs verification with CAD -->",
  chars "      <mass value=\"0.05\"/>",
  chars "      <origin rpy=\"0 0 0\" xyz=\"0 0 0\"/>",
  chars "      <inertia ixx=\"0.001\" ixy=\"0.0\" ixz=\"0.0\" iyy=\"0.001\" iyz=\"0.0\" izz=\"0.01\"/>",
  chars "    </inertial>",
  chars "    <!-- Should probably get real visuals here at some point -->",
  chars "  </link>",
  chars "  <joint name=\"high_def_frame_joint\" type=\"fixed\">",
  chars "    <origin rpy=\"0 0 0\" xyz=\"0.046457 -0.110 0.054600\"/>",
  chars "    <parent link=\"sensor_mount_link\"/>"]

/-- data/pr2.urdf:451-600 -/
def text4 : List (List Char) := [
  chars "    <child link=\"high_def_frame\"/>",
  chars "  </joint>",
  chars "  <link name=\"high_def_frame\">",
  chars "    <inertial>",
  chars "      <mass value=\"0.01\"/>",
  chars "      <origin rpy=\"0 0 0\" xyz=\"0 0 0\"/>",
  chars "      <inertia ixx=\"0.001\" ixy=\"0.0\" ixz=\"0.0\" iyy=\"0.001\" iyz=\"0.0\" izz=\"0.001\"/>",
  chars "    </inertial>",
  chars "  </link>",
  chars "  <joint name=\"high_def_optical_frame_joint\" type=\"fixed\">",
  chars "    <origin rpy=\"-1.57079632679 0.0 -1.57079632679\" xyz=\"0.0            0.0         0.0\"/>",
  chars "    <parent link=\"high_def_frame\"/>",
  chars "    <child link=\"high_def_optical_frame\"/>",
  chars "  </joint>",
  chars "  <link name=\"high_def_optical_frame\">",
  chars "    <inertial>",
  chars "      <mass value=\"0.01\"/>",
  chars "      <origin rpy=\"0 0 0\" xyz=\"0 0 0\"/>",
  chars "      <inertia ixx=\"0.001\" ixy=\"0.0\" ixz=\"0.0\" iyy=\"0.001\" iyz=\"0.0\" izz=\"0.001\"/>",
  chars "    </inertial>",
  chars "  </link>",
  chars "  <joint name=\"double_stereo_frame_joint\" type=\"fixed\">",
  chars "    <origin rpy=\"0 0 0\" xyz=\"0.0 0.0 0.0\"/>",
  chars "    <parent link=\"sensor_mount_link\"/>",
  chars "    <child link=\"double_stereo_link\"/>",
  chars "  </joint>",
  chars "  <link name=\"double_stereo_link\">",
  chars "    <inertial>",
  chars "      <!-- Needs verification with CAD -->",
  chars "      <mass value=\"0.1\"/>",
  chars "      <origin rpy=\"0 0 0\" xyz=\"0 0 0\"/>",
  chars "      <inertia ixx=\"0.001\" ixy=\"0.0\" ixz=\"0.0\" iyy=\"0.001\" iyz=\"0.0\" izz=\"0.01\"/>",
  chars "    </inertial>",
  chars "    <!-- Should probably get real visuals here at some point -->",
  chars "  </link>",
  chars "  <joint name=\"wide_stereo_frame_joint\" type=\"fixed\">",
  chars "    <origin rpy=\"0.0   0.0   0.0\" xyz=\"0.045 0.03 0.0501\"/>",
  chars "    <parent link=\"double_stereo_link\"/>",
  chars "    <child link=\"wide_stereo_link\"/>",
  chars "  </joint>",
  chars "  <!-- camera link is at center of the optical frame, but in x-forward notation -->",
  chars "  <link name=\"wide_stereo_link\">",
  chars "    <inertial>",
  chars "      <mass value=\"0.1\"/>",
  chars "      <origin rpy=\"0 0 0\" xyz=\"0 0 0\"/>",
  chars "      <inertia ixx=\"0.01\" ixy=\"0\" ixz=\"0\" iyy=\"0.01\" iyz=\"0\" izz=\"0.01\"/>",
  chars "      <!-- this inertia is made up for now. -->",
  chars "    </inertial>",
  chars "  </link>",
  chars "  <!-- attach optical frame to the camera link -->",
  chars "  <joint name=\"wide_stereo_optical_frame_joint\" type=\"fixed\">",
  chars "    <origin rpy=\"-1.57079632679 0.0 -1.57079632679\" xyz=\"0 0 0\"/>",
  chars "    <!-- rotate frame from x-forward to z-forward camera coords -->",
  chars "    <parent link=\"wide_stereo_link\"/>",
  chars "    <child link=\"wide_stereo_optical_frame\"/>",
  chars "  </joint>",
  chars "  <!-- optical frame for the stereo camera, with z-forward notation, this is the frame stereo camera images users should refer to -->",
  chars "  <link name=\"wide_stereo_optical_frame\" type=\"camera\"/>",
  chars "  <joint name=\"wide_stereo_l_stereo_camera_frame_joint\" type=\"fixed\">",
  chars "    <origin rpy=\"0 0 0\" xyz=\"0 0 0\"/>",
  chars "    <parent link=\"wide_stereo_link\"/>",
  chars "    <child link=\"wide_stereo_l_stereo_camera_frame\"/>",
  chars "  </joint>",
  chars "  <link name=\"wide_stereo_l_stereo_camera_frame\">",
  chars "    <inertial>",
  chars "      <mass value=\"0.01\"/>",
  chars "      <origin xyz=\"0 0 0\"/>",
  chars "      <inertia ixx=\"0.001\" ixy=\"0.0\" ixz=\"0.0\" iyy=\"0.001\" iyz=\"0.0\" izz=\"0.001\"/>",
  chars "    </inertial>",
  chars "  </link>",
  chars "  <joint name=\"wide_stereo_l_stereo_camera_optical_frame_joint\" type=\"fixed\">",
  chars "    <origin rpy=\"-1.57079632679 0.0 -1.57079632679\" xyz=\"0 0 0\"/>",
  chars "    <parent link=\"wide_stereo_l_stereo_camera_frame\"/>",
  chars "    <child link=\"wide_stereo_l_stereo_camera_optical_frame\"/>",
  chars "  </joint>",
  chars "  <link name=\"wide_stereo_l_stereo_camera_optical_frame\"/>",
  chars "  <joint name=\"wide_stereo_r_stereo_camera_frame_joint\" type=\"fixed\">",
  chars "    <origin rpy=\"0.0 0.0 0.0\" xyz=\"0.0 -0.09 0.0\"/>",
  chars "    <parent link=\"wide_stereo_l_stereo_camera_frame\"/>",
  chars "    <child link=\"wide_stereo_r_stereo_camera_frame\"/>",
  chars "  </joint>",
  chars "  <link name=\"wide_stereo_r_stereo_camera_frame\">",
  chars "    <inertial>",
  chars "      <mass value=\"0.01\"/>",
  chars "      <origin xyz=\"0 0 0\"/>",
  chars "      <inertia ixx=\"0.001\" ixy=\"0.0\" ixz=\"0.0\" iyy=\"0.001\" iyz=\"0.0\" izz=\"0.001\"/>",
  chars "    </inertial>",
  chars "  </link>",
  chars "  <joint name=\"wide_stereo_r_stereo_camera_optical_frame_joint\" type=\"fixed\">",
  chars "    <origin rpy=\"-1.57079632679 0.0 -1.57079632679\" xyz=\"0 0 0\"/>",
  chars "    <parent link=\"wide_stereo_r_stereo_camera_frame\"/>",
  chars "    <child link=\"wide_stereo_r_stereo_camera_optical_frame\"/>",
  chars "  </joint>",
  chars "  <link name=\"wide_stereo_r_stereo_camera_optical_frame\"/>",
  chars "  <joint name=\"narrow_stereo_frame_joint\" type=\"fixed\">",
  chars "    <origin rpy=\"0.0   0.0   0.0\" xyz=\"0.045 0.06 0.0501\"/>",
  chars "    <parent link=\"double_stereo_link\"/>",
  chars "    <child link=\"narrow_stereo_link\"/>",
  chars "  </joint>",
  chars "  <!-- camera link is at center of the optical frame, but in x-forward notation -->",
  chars "  <link name=\"narrow_stereo_link\">",
  chars "    <inertial>",
  chars "      <mass value=\"0.1\"/>",
  chars "      <origin rpy=\"0 0 0\" xyz=\"0 0 0\"/>",
  chars "      <inertia ixx=\"0.01\" ixy=\"0\" ixz=\"0\" iyy=\"0.01\" iyz=\"0\" izz=\"0.01\"/>",
  chars "      <!-- this inertia is made up for now. -->",
  chars "    </inertial>",
  chars "  </link>",
  chars "  <!-- attach optical frame to the camera link -->",
  chars "  <joint name=\"narrow_stereo_optical_frame_joint\" type=\"fixed\">",
  chars "    <origin rpy=\"-1.57079632679 0.0 -1.57079632679\" xyz=\"0 0 0\"/>",
  chars "    <!-- rotate frame from x-forward to z-forward camera coords -->",
  chars "    <parent link=\"narrow_stereo_link\"/>",
  chars "    <child link=\"narrow_stereo_optical_frame\"/>",
  chars "  </joint>",
  chars "  <!-- optical frame for the stereo camera, with z-forward notation, this is the frame stereo camera images users should refer to -->",
  chars "  <link name=\"narrow_stereo_optical_frame\" type=\"camera\"/>",
  chars "  <joint name=\"narrow_stereo_l_stereo_camera_frame_joint\" type=\"fixed\">",
  chars "    <origin rpy=\"0 0 0\" xyz=\"0 0 0\"/>",
  chars "    <parent link=\"narrow_stereo_link\"/>",
  chars "    <child link=\"narrow_stereo_l_stereo_camera_frame\"/>",
  chars "  </joint>",
  chars "  <link name=\"narrow_stereo_l_stereo_camera_frame\">",
  chars "    <inertial>",
  chars "      <mass value=\"0.01\"/>",
  chars "      <origin xyz=\"0 0 0\"/>",
  chars "      <inertia ixx=\"0.001\" ixy=\"0.0\" ixz=\"0.0\" iyy=\"0.001\" iyz=\"0.0\" izz=\"0.001\"/>",
  chars "    </inertial>",
  chars "  </link>",
  chars "  <joint name=\"narrow_stereo_l_stereo_camera_optical_frame_joint\" type=\"fixed\">",
  chars "    <origin rpy=\"-1.57079632679 0.0 -1.57079632679\" xyz=\"0 0 0\"/>",
  chars "    <parent link=\"narrow_stereo_l_stereo_camera_frame\"/>",
  chars "    <child link=\"narrow_stereo_l_stereo_camera_optical_frame\"/>",
  chars "  </joint>",
  chars "  <link name=\"narrow_stereo_l_stereo_camera_optical_frame\"/>",
  chars "  <joint name=\"narrow_stereo_r_stereo_camera_frame_joint\" type=\"fixed\">",
  chars "    <origin rpy=\"0.0 0.0 0.0\" xyz=\"0.0 -0.09 0.0\"/>",
  chars "    <parent link=\"narrow_stereo_l_stereo_camera_frame\"/>",
  chars "    <child link=\"narrow_stereo_r_stereo_camera_frame\"/>",
  chars "  </joint>",
  chars "  <link name=\"narrow_stereo_r_stereo_camera_frame\">",
  chars "    <inertial>",
  chars "      <mass value=\"0.01\"/>",
  chars "      <origin xyz=\"0 0 0\"/>",
  chars "      <inertia ixx=\"0.001\" ixy=\"0.0\" ixz=\"0.0\" iyy=\"0.001\" iyz=\"0.0\" izz=\"0.001\"/>",
  chars "    </inertial>",
  chars "  </link>",
  chars "  <joint name=\"narrow_stereo_r_stereo_camera_optical_frame_joint\" type=\"fixed\">",
  chars "    <origin rpy=\"-1.57079632679 0.0 -1.57079632679\" xyz=\"0 0 0\"/>",
  chars "    <parent link=\"narrow_stereo_r_stereo_camera_frame\"/>"]

/-- data/pr2.urdf:601-750 -/
def text5 : List (List Char) := [
  chars "    <child link=\"narrow_stereo_r_stereo_camera_optical_frame\"/>",
  chars "  </joint>",
  chars "  <link name=\"narrow_stereo_r_stereo_camera_optical_frame\"/>",
  chars "  <!-- Define link to stereo cameras, set origin relative to that -->",
  chars "  <joint name=\"projector_wg6802418_frame_joint\" type=\"fixed\">",
  chars "    <origin rpy=\"0 0 0\" xyz=\"0 0.110 0.0546\"/>",
  chars "    <parent link=\"head_plate_frame\"/>",
  chars "    <child link=\"projector_wg6802418_frame\"/>",
  chars "  </joint>",
  chars "  <link name=\"projector_wg6802418_frame\">",
  chars "    <inertial>",
  chars "      <mass value=\"0.01\"/>",
  chars "      <origin rpy=\"0 0 0\" xyz=\"0 0 0\"/>",
  chars "      <inertia ixx=\"0.001\" ixy=\"0.0\" ixz=\"0.0\" iyy=\"0.001\" iyz=\"0.0\" izz=\"0.001\"/>",
  chars "    </inertial>",
  chars "  </link>",
  chars "  <joint name=\"projector_wg6802418_child_frame_joint\" type=\"fixed\">",
  chars "    <origin rpy=\"0 -1.57079632679 0\" xyz=\"0 0 0\"/>",
  chars "    <parent link=\"projector_wg6802418_frame\"/>",
  chars "    <child link=\"projector_wg6802418_child_frame\"/>",
  chars "  </joint>",
  chars "  <link name=\"projector_wg6802418_child_frame\">",
  chars "    <inertial>",
  chars "      <mass value=\"0.01\"/>",
  chars "      <origin rpy=\"0 0 0\" xyz=\"0 0 0\"/>",
  chars "      <inertia ixx=\"0.001\" ixy=\"0.0\" ixz=\"0.0\" iyy=\"0.001\" iyz=\"0.0\" izz=\"0.001\"/>",
  chars "    </inertial>",
  chars "  </link>",
  chars "  <joint name=\"laser_tilt_mount_joint\" type=\"revolute\">",
  chars "    <axis xyz=\"0 1 0\"/>",
  chars "    <limit effort=\"0.65\" lower=\"-0.7854\" upper=\"1.48353\" velocity=\"10.0\"/>",
  chars "    <!-- alpha tested velocity and effort limits -->",
  chars "    <safety_controller k_position=\"100\" k_velocity=\"0.05\" soft_lower_limit=\"-0.7354\" soft_upper_limit=\"1.43353\"/>",
  chars "    <calibration falling=\"0.0\"/>",
  chars "    <dynamics damping=\"0.008\"/>",
  chars "    <origin rpy=\"0 0 0\" xyz=\"0.09893 0 0.227\"/>",
  chars "    <parent link=\"torso_lift_link\"/>",
  chars "    <child link=\"laser_tilt_mount_link\"/>",
  chars "  </joint>",
  chars "  <link name=\"laser_tilt_mount_link\">",
  chars "    <inertial>",
  chars "      <mass value=\"0.591\"/>",
  chars "      <origin rpy=\"0 0 0\" xyz=\"-0.001136 0.00167 -0.00713\"/>",
  chars "      <inertia ixx=\"0.001195273\" ixy=\"0.000023087\" ixz=\"0.000037467\" iyy=\"0.001083956\" iyz=\"0.000034906\" izz=\"0.000795014\"/>",
  chars "    </inertial>",
  chars "  </link>",
  chars "  <joint name=\"laser_tilt_joint\" type=\"fixed\">",
  chars "    <axis xyz=\"0 1 0\"/>",
  chars "    <origin rpy=\"0 0 0\" xyz=\"0 0 0.03\"/>",
  chars "    <parent link=\"laser_tilt_mount_link\"/>",
  chars "    <child link=\"laser_tilt_link\"/>",
  chars "  </joint>",
  chars "  <link name=\"laser_tilt_link\" type=\"laser\">",
  chars "    <inertial>",
  chars "      <mass value=\"0.001\"/>",
  chars "      <origin rpy=\"0 0 0\" xyz=\"0 0 0\"/>",
  chars "      <inertia ixx=\"0.0001\" ixy=\"0\" ixz=\"0\" iyy=\"0.000001\" iyz=\"0\" izz=\"0.0001\"/>",
  chars "    </inertial>",
  chars "  </link>",
  chars "  <!-- Shoulder pan -->",
  chars "  <joint name=\"r_shoulder_pan_joint\" type=\"revolute\">",
  chars "    <axis xyz=\"0 0 1\"/>",
  chars "    <origin rpy=\"0 0 0\" xyz=\"0.0 -0.188 0.0\"/>",
  chars "    <!-- transform from parent link to this joint frame -->",
  chars "    <parent link=\"torso_lift_link\"/>",
  chars "    <child link=\"r_shoulder_pan_link\"/>",
  chars "    <limit effort=\"30\" lower=\"-2.2853981634\" upper=\"0.714601836603\" velocity=\"2.088\"/>",
  chars "    <!-- alpha tested velocity and effort limits -->",
  chars "    <dynamics damping=\"10.0\"/>",
  chars "    <safety_controller k_position=\"100\" k_velocity=\"10\" soft_lower_limit=\"-2.1353981634\" soft_upper_limit=\"0.564601836603\"/>",
  chars "    <!-- joint angle when the rising or the falling flag is activated on PR2 -->",
  chars "    <calibration rising=\"-0.785398163397\"/>",
  chars "  </joint>",
  chars "  <link name=\"r_shoulder_pan_link\">",
  chars "    <inertial>",
  chars "      <mass value=\"25.799322\"/>",
  chars "      <origin rpy=\"0 0 0\" xyz=\"-0.001201 0.024513 -0.098231\"/>",
  chars "      <inertia ixx=\"0.866179142480\" ixy=\"-0.06086507933\" ixz=\"-0.12118061183\" iyy=\"0.87421714893\" iyz=\"-0.05886609911\" izz=\"0.27353821674\"/>",
  chars "    </inertial>",
  chars "  </link>",
  chars "  <!-- Shoulder lift -->",
  chars "  <joint name=\"r_shoulder_lift_joint\" type=\"revolute\">",
  chars "    <axis xyz=\"0 1 0\"/>",
  chars "    <!-- Limits updated from Function's CAD values as of 2009_02_24 (link_data.xls) -->",
  chars "    <limit effort=\"30\" lower=\"-0.5236\" upper=\"1.3963\" velocity=\"2.082\"/>",
  chars "    <!-- alpha tested velocity and effort limits -->",
  chars "    <safety_controller k_position=\"100\" k_velocity=\"10\" soft_lower_limit=\"-0.3536\" soft_upper_limit=\"1.2963\"/>",
  chars "    <calibration falling=\"0.0\"/>",
  chars "    <dynamics damping=\"10.0\"/>",
  chars "    <origin rpy=\"0 0 0\" xyz=\"0.1 0 0\"/>",
  chars "    <parent link=\"r_shoulder_pan_link\"/>",
  chars "    <child link=\"r_shoulder_lift_link\"/>",
  chars "  </joint>",
  chars "  <link name=\"r_shoulder_lift_link\">",
  chars "    <inertial>",
  chars "      <mass value=\"2.74988\"/>",
  chars "      <origin rpy=\"0 0 0\" xyz=\"0.02195 -0.02664 -0.03127\"/>",
  chars "      <inertia ixx=\"0.02105584615\" ixy=\"0.00496704022\" ixz=\"-0.00194808955\" iyy=\"0.02127223737\" iyz=\"0.00110425490\" izz=\"0.01975753814\"/>",
  chars "    </inertial>",
  chars "  </link>",
  chars "  <joint name=\"r_upper_arm_roll_joint\" type=\"revolute\">",
  chars "    <axis xyz=\"1 0 0\"/>",
  chars "    <origin rpy=\"0 0 0\" xyz=\"0 0 0\"/>",
  chars "    <parent link=\"r_shoulder_lift_link\"/>",
  chars "    <child link=\"r_upper_arm_roll_link\"/>",
  chars "    <limit effort=\"30\" lower=\"-3.9\" upper=\"0.8\" velocity=\"3.27\"/>",
  chars "    <!-- alpha tested velocity and effort limits -->",
  chars "    <safety_controller k_position=\"100\" k_velocity=\"2\" soft_lower_limit=\"-3.75\" soft_upper_limit=\"0.65\"/>",
  chars "    <calibration rising=\"-1.57079632679\"/>",
  chars "    <dynamics damping=\"0.1\"/>",
  chars "  </joint>",
  chars "  <link name=\"r_upper_arm_roll_link\">",
  chars "    <inertial>",
  chars "      <!-- dummy mass, to be removed -->",
  chars "      <mass value=\"0.1\"/>",
  chars "      <origin rpy=\"0 0 0\" xyz=\"0.0 0 0\"/>",
  chars "      <inertia ixx=\"0.01\" ixy=\"0.00\" ixz=\"0.00\" iyy=\"0.01\" iyz=\"0.00\" izz=\"0.01\"/>",
  chars "    </inertial>",
  chars "  </link>",
  chars "  <joint name=\"r_upper_arm_joint\" type=\"fixed\">",
  chars "    <origin rpy=\"0 0 0\" xyz=\"0 0 0\"/>",
  chars "    <parent link=\"r_upper_arm_roll_link\"/>",
  chars "    <child link=\"r_upper_arm_link\"/>",
  chars "  </joint>",
  chars "  <link name=\"r_upper_arm_link\">",
  chars "    <inertial>",
  chars "      <!-- NOTE:reflect==-1 for right side, reflect==1 for the left side -->",
  chars "      <mass value=\"6.01769\"/>",
  chars "      <origin xyz=\"0.21398 -0.01621 -0.0002\"/>",
  chars "      <inertia ixx=\"0.01537748957\" ixy=\"0.00375711247\" ixz=\"-0.00070852914\" iyy=\"0.0747367044\" iyz=\"-0.0001793645\" izz=\"0.07608763307\"/>",
  chars "    </inertial>",
  chars "  </link>",
  chars "  <!-- Has upperarm link -->",
  chars "  <!-- No transmission, since this a fixed joint w/o actuator -->",
  chars "  <!-- forearm_roll_link is a fictitious link internal to elbow_flex_link, provides an attachment point for the actual forearm -->",
  chars "  <joint name=\"r_forearm_roll_joint\" type=\"continuous\">",
  chars "    <axis xyz=\"1 0 0\"/>",
  chars "    <limit effort=\"30\" velocity=\"3.6\"/>",
  chars "    <!-- alpha tested velocity and effort limits -->",
  chars "    <safety_controller k_velocity=\"1\"/>",
  chars "    <calibration rising=\"0.0\"/>",
  chars "    <dynamics damping=\"0.1\"/>",
  chars "    <origin rpy=\"0 0 0\" xyz=\"0 0 0\"/>",
  chars "    <parent link=\"r_elbow_flex_link\"/>",
  chars "    <child link=\"r_forearm_roll_link\"/>",
  chars "  </joint>",
  chars "  <!-- TODO: inertial tag should be optional -->",
  chars "  <link name=\"r_forearm_roll_link\">",
  chars "    <inertial>",
  chars "      <!-- dummy masses, to be removed -->"]

/-- data/pr2.urdf:751-900 -/
def text6 : List (List Char) := [
  chars "      <mass value=\"0.1\"/>",
  chars "      <origin xyz=\"0 0 0\"/>",
  chars "      <inertia ixx=\"0.01\" ixy=\"0.00\" ixz=\"0.00\" iyy=\"0.01\" iyz=\"0.00\" izz=\"0.01\"/>",
  chars "    </inertial>",
  chars "  </link>",
  chars "  <!-- Elbow flex -->",
  chars "  <joint name=\"r_elbow_flex_joint\" type=\"revolute\">",
  chars "    <axis xyz=\"0 1 0\"/>",
  chars "    <!-- Note: Overtravel limits are 140, -7 degrees instead of 133, 0 -->",
  chars "    <limit effort=\"30\" lower=\"-2.3213\" upper=\"0.00\" velocity=\"3.3\"/>",
  chars "    <!-- alpha tested velocity and effort limits -->",
  chars "    <safety_controller k_position=\"100\" k_velocity=\"3\" soft_lower_limit=\"-2.1213\" soft_upper_limit=\"-0.15\"/>",
  chars "    <calibration falling=\"-1.1606\"/>",
  chars "    <dynamics damping=\"1.0\"/>",
  chars "    <origin rpy=\"0 0 0\" xyz=\"0.4 0 0\"/>",
  chars "    <parent link=\"r_upper_arm_link\"/>",
  chars "    <child link=\"r_elbow_flex_link\"/>",
  chars "  </joint>",
  chars "  <link name=\"r_elbow_flex_link\">",
  chars "    <inertial>",
  chars "      <mass value=\"1.90327\"/>",
  chars "      <origin xyz=\"0.01014 0.00032 -0.01211\"/>",
  chars "      <inertia ixx=\"0.00346541989\" ixy=\"0.00004066825\" ixz=\"0.00043171614\" iyy=\"0.00441606455\" iyz=\"-0.00003968914\" izz=\"0.00359156824\"/>",
  chars "    </inertial>",
  chars "  </link>",
  chars "  <!-- Elbow flex -->",
  chars "  <joint name=\"r_forearm_joint\" type=\"fixed\">",
  chars "    <origin rpy=\"0 0 0\" xyz=\"0 0 0\"/>",
  chars "    <!-- transform from parent link to this joint frame -->",
  chars "    <parent link=\"r_forearm_roll_link\"/>",
  chars "    <child link=\"r_forearm_link\"/>",
  chars "  </joint>",
  chars "  <link name=\"r_forearm_link\">",
  chars "    <inertial>",
  chars "      <mass value=\"2.57968\"/>",
  chars "      <origin xyz=\"0.18791 -0.00017 -0.00912\"/>",
  chars "      <inertia ixx=\"0.00364857222\" ixy=\"0.00005215877\" ixz=\"0.00071534842\" iyy=\"0.01507736897\" iyz=\"-0.00001310770\" izz=\"0.01659310749\"/>",
  chars "    </inertial>",
  chars "  </link>",
  chars "  <!-- Wrist flex -->",
  chars "  <joint name=\"r_wrist_flex_joint\" type=\"revolute\">",
  chars "    <axis xyz=\"0 1 0\"/>",
  chars "    <limit effort=\"10\" lower=\"-2.18\" upper=\"0.0\" velocity=\"3.078\"/>",
  chars "    <!-- alpha tested velocity and effort limits -->",
  chars "    <safety_controller k_position=\"20\" k_velocity=\"4\" soft_lower_limit=\"-2.0\" soft_upper_limit=\"-0.1\"/>",
  chars "    <dynamics damping=\"0.1\"/>",
  chars "    <calibration falling=\"-0.5410521\"/>",
  chars "    <origin rpy=\"0 0 0\" xyz=\"0.321 0 0\"/>",
  chars "    <parent link=\"r_forearm_link\"/>",
  chars "    <child link=\"r_wrist_flex_link\"/>",
  chars "  </joint>",
  chars "  <link name=\"r_wrist_flex_link\">",
  chars "    <inertial>",
  chars "      <mass value=\"0.61402\"/>",
  chars "      <origin xyz=\"-0.00157 0.0 -0.00075\"/>",
  chars "      <inertia ixx=\"0.00065165722\" ixy=\"0.00000028864\" ixz=\"0.00000303477\" iyy=\"0.00019824443\" iyz=\"-0.00000022645\" izz=\"0.00064450498\"/>",
  chars "    </inertial>",
  chars "  </link>",
  chars "  <!-- Wrist roll -->",
  chars "  <joint name=\"r_wrist_roll_joint\" type=\"continuous\">",
  chars "    <axis xyz=\"1 0 0\"/>",
  chars "    <limit effort=\"10\" velocity=\"3.6\"/>",
  chars "    <!-- alpha tested velocity and effort limits -->",
  chars "    <safety_controller k_velocity=\"2\"/>",
  chars "    <dynamics damping=\"0.1\"/>",
  chars "    <calibration rising=\"-1.57079632679\"/>",
  chars "    <origin rpy=\"0 0 0\" xyz=\"0 0 0\"/>",
  chars "    <parent link=\"r_wrist_flex_link\"/>",
  chars "    <child link=\"r_wrist_roll_link\"/>",
  chars "  </joint>",
  chars "  <link name=\"r_wrist_roll_link\">",
  chars "    <inertial>",
  chars "      <!-- dummy masses, to be removed.  wrist roll masses are on \"gripper_palm\" -->",
  chars "      <mass value=\"0.1\"/>",
  chars "      <origin xyz=\"0 0 0\"/>",
  chars "      <inertia ixx=\"0.01\" ixy=\"0\" ixz=\"0\" iyy=\"0.01\" iyz=\"0\" izz=\"0.01\"/>",
  chars "    </inertial>",
  chars "  </link>",
  chars "  <!-- Wrist flex , Wrist roll -->",
  chars "  <joint name=\"r_gripper_palm_joint\" type=\"fixed\">",
  chars "    <origin rpy=\"0 0 0\" xyz=\"0 0 0\"/>",
  chars "    <parent link=\"r_wrist_roll_link\"/>",
  chars "    <child link=\"r_gripper_palm_link\"/>",
  chars "  </joint>",
  chars "  <link name=\"r_gripper_palm_link\">",
  chars "    <inertial>",
  chars "      <mass value=\"0.58007\"/>",
  chars "      <origin rpy=\"0 0 0\" xyz=\"0.06623 0.00053 -0.00119\"/>",
  chars "      <inertia ixx=\"0.00035223921\" ixy=\"-0.00001580476\" ixz=\"-0.00000091750\" iyy=\"0.00067741312\" iyz=\"-0.00000059554\" izz=\"0.00086563316\"/>",
  chars "    </inertial>",
  chars "  </link>",
  chars "  <joint name=\"r_gripper_led_joint\" type=\"fixed\">",
  chars "    <!--  Need to check if we need a positive or negative Z term -->",
  chars "    <origin xyz=\"0.0513 0.0 .0244\"/>",
  chars "    <parent link=\"r_gripper_palm_link\"/>",
  chars "    <child link=\"r_gripper_led_frame\"/>",
  chars "  </joint>",
  chars "  <link name=\"r_gripper_led_frame\"/>",
  chars "  <joint name=\"r_gripper_motor_accelerometer_joint\" type=\"fixed\">",
  chars "    <origin rpy=\"0 0 0\" xyz=\"0 0 0\"/>",
  chars "    <parent link=\"r_gripper_palm_link\"/>",
  chars "    <child link=\"r_gripper_motor_accelerometer_link\"/>",
  chars "  </joint>",
  chars "  <link name=\"r_gripper_motor_accelerometer_link\">",
  chars "    <inertial>",
  chars "      <mass value=\"0.001\"/>",
  chars "      <origin rpy=\"0 0 0\" xyz=\"0 0 0\"/>",
  chars "      <inertia ixx=\"0.001\" ixy=\"0.0\" ixz=\"0.0\" iyy=\"0.001\" iyz=\"0.0\" izz=\"0.001\"/>",
  chars "    </inertial>",
  chars "  </link>",
  chars "  <joint name=\"r_gripper_tool_joint\" type=\"fixed\">",
  chars "    <origin rpy=\"0 0 0\" xyz=\"0.18 0 0\"/>",
  chars "    <parent link=\"r_gripper_palm_link\"/>",
  chars "    <child link=\"r_gripper_tool_frame\"/>",
  chars "  </joint>",
  chars "  <link name=\"r_gripper_tool_frame\"/>",
  chars "  <!-- actuated motor screw joint -->",
  chars "  <link name=\"r_gripper_motor_slider_link\">",
  chars "    <inertial>",
  chars "      <mass value=\"0.01\"/>",
  chars "      <origin rpy=\"0 0 0\" xyz=\"0 0 0\"/>",
  chars "      <inertia ixx=\"0.001\" ixy=\"0.0\" ixz=\"0.0\" iyy=\"0.001\" iyz=\"0.0\" izz=\"0.001\"/>",
  chars "    </inertial>",
  chars "    <!-- for debugging only",
  chars "      <visual>",
  chars "        <origin xyz=\"0 0 0\" rpy=\"1.5708 0 0\" />",
  chars "        <geometry>",
  chars "          <cylinder length=\"0.002\" radius=\"0.025\"/>",
  chars "        </geometry>",
  chars "      </visual>",
  chars "      <collision>",
  chars "        <origin xyz=\"0 0 0\" rpy=\"1.5708 0 0\" />",
  chars "        <geometry>",
  chars "          <cylinder length=\"0.002\" radius=\"0.025\"/>",
  chars "        </geometry>",
  chars "      </collision>",
  chars "      -->",
  chars "  </link>",
  chars "  <joint name=\"r_gripper_motor_slider_joint\" type=\"prismatic\">",
  chars "    <origin rpy=\"0 0 0\" xyz=\"0.16828 0 0\"/>",
  chars "    <axis xyz=\"1 0 0\"/>",
  chars "    <parent link=\"r_gripper_palm_link\"/>",
  chars "    <child link=\"r_gripper_motor_slider_link\"/>",
  chars "    <limit effort=\"1000.0\" lower=\"-0.1\" upper=\"0.1\" velocity=\"0.2\"/>",
  chars "  </joint>",
  chars "  <link name=\"r_gripper_motor_screw_link\">",
  chars "    <inertial>",
  chars "      <mass value=\"0.01\"/>",
  chars "      <origin rpy=\"0 0 0\" xyz=\"0 0 0\"/>",
  chars "      <inertia ixx=\"0.0001\" ixy=\"0.0\" ixz=\"0.0\" iyy=\"0.0001\" iyz=\"0.0\" izz=\"0.0001\"/>"]

/-- data/pr2.urdf:901-1050 -/
def text7 : List (List Char) := [
  chars "    </inertial>",
  chars "    <!-- for debugging only",
  chars "      <visual>",
  chars "        <origin xyz=\"0 0 0\" rpy=\"0 0 0\" />",
  chars "        <geometry>",
  chars "          <box size=\"0.05 0.001 0.05\" />",
  chars "        </geometry>",
  chars "      </visual>",
  chars "      <collision>",
  chars "        <origin xyz=\"0 0 0\" rpy=\"0 0 0\" />",
  chars "        <geometry>",
  chars "          <box size=\"0.05 0.001 0.05\" />",
  chars "        </geometry>",
  chars "      </collision>",
  chars "      -->",
  chars "  </link>",
  chars "  <joint name=\"r_gripper_motor_screw_joint\" type=\"continuous\">",
  chars "    <origin rpy=\"0 0 0\" xyz=\"0.0 0 0\"/>",
  chars "    <axis xyz=\"0 1 0\"/>",
  chars "    <parent link=\"r_gripper_motor_slider_link\"/>",
  chars "    <child link=\"r_gripper_motor_screw_link\"/>",
  chars "    <dynamics damping=\"0.0001\"/>",
  chars "  </joint>",
  chars "  <!-- Finger proximal digit -->",
  chars "  <joint name=\"r_gripper_l_finger_joint\" type=\"revolute\">",
  chars "    <axis xyz=\"0 0 1\"/>",
  chars "    <!-- limits on passive finger and finger top joints without",
  chars "         transmission are not enforced by safety controllers.",
  chars "         The lower/upper limits and are enforced in PR2 simulation and",
  chars "         effort and velocity limits are ignored. This is also needed because",
  chars "         these joints are declared revolute rather than continuous.-->",
  chars "    <limit effort=\"1000.0\" lower=\"0.0\" upper=\"0.548\" velocity=\"0.5\"/>",
  chars "    <dynamics damping=\"0.02\"/>",
  chars "    <origin rpy=\"0 0 0\" xyz=\"0.07691 0.01 0\"/>",
  chars "    <parent link=\"r_gripper_palm_link\"/>",
  chars "    <child link=\"r_gripper_l_finger_link\"/>",
  chars "  </joint>",
  chars "  <link name=\"r_gripper_l_finger_link\">",
  chars "    <inertial>",
  chars "      <mass value=\"0.17126\"/>",
  chars "      <origin rpy=\"0 0 0\" xyz=\"0.03598 0.01730 -0.00164\"/>",
  chars "      <inertia ixx=\"0.00007756198\" ixy=\"0.00000149095\" ixz=\"-0.00000983385\" iyy=\"0.00019708305\" iyz=\"-0.00000306125\" izz=\"0.00018105446\"/>",
  chars "    </inertial>",
  chars "  </link>",
  chars "  <!-- Finger proximal digit -->",
  chars "  <joint name=\"r_gripper_r_finger_joint\" type=\"revolute\">",
  chars "    <axis xyz=\"0 0 -1\"/>",
  chars "    <origin rpy=\"0 0 0\" xyz=\"0.07691 -0.01 0\"/>",
  chars "    <!-- limits on passive finger and finger top joints without",
  chars "         transmission are not enforced by safety controllers.",
  chars "         The lower/upper limits and are enforced in PR2 simulation and",
  chars "         effort and velocity limits are ignored. This is also needed because",
  chars "         these joints are declared revolute rather than continuous.-->",
  chars "    <limit effort=\"1000.0\" lower=\"0.0\" upper=\"0.548\" velocity=\"0.5\"/>",
  chars "    <dynamics damping=\"0.02\"/>",
  chars "    <mimic joint=\"r_gripper_l_finger_joint\" multiplier=\"1\" offset=\"0\"/>",
  chars "    <parent link=\"r_gripper_palm_link\"/>",
  chars "    <child link=\"r_gripper_r_finger_link\"/>",
  chars "  </joint>",
  chars "  <link name=\"r_gripper_r_finger_link\">",
  chars "    <inertial>",
  chars "      <mass value=\"0.17389\"/>",
  chars "      <origin rpy=\"0 0 0\" xyz=\"0.03576 -0.01736 -0.00095\"/>",
  chars "      <inertia ixx=\"0.00007738410\" ixy=\"-0.00000209309\" ixz=\"-0.00000836228\" iyy=\"0.00019847383\" iyz=\"0.00000246110\" izz=\"0.00018106988\"/>",
  chars "    </inertial>",
  chars "  </link>",
  chars "  <!-- Finger tip -->",
  chars "  <joint name=\"r_gripper_l_finger_tip_joint\" type=\"revolute\">",
  chars "    <axis xyz=\"0 0 -1\"/>",
  chars "    <origin rpy=\"0 0 0\" xyz=\"0.09137 0.00495 0\"/>",
  chars "    <!-- limits on passive finger and finger top joints without",
  chars "         transmission are not enforced by safety controllers.",
  chars "         The lower/upper limits and are enforced in PR2 simulation and",
  chars "         effort and velocity limits are ignored. This is also needed because",
  chars "         these joints are declared revolute rather than continuous.-->",
  chars "    <limit effort=\"1000.0\" lower=\"0.0\" upper=\"0.548\" velocity=\"0.5\"/>",
  chars "    <dynamics damping=\"0.001\"/>",
  chars "    <mimic joint=\"r_gripper_l_finger_joint\" multiplier=\"1\" offset=\"0\"/>",
  chars "    <parent link=\"r_gripper_l_finger_link\"/>",
  chars "    <child link=\"r_gripper_l_finger_tip_link\"/>",
  chars "  </joint>",
  chars "  <link name=\"r_gripper_l_finger_tip_link\">",
  chars "    <inertial>",
  chars "      <mass value=\"0.04419\"/>",
  chars "      <origin rpy=\"0 0 0\" xyz=\"0.00423 0.00284 0.0\"/>",
  chars "      <inertia ixx=\"0.00000837047\" ixy=\"0.00000583632\" ixz=\"0.0\" iyy=\"0.00000987067\" iyz=\"0.0\" izz=\"0.00001541768\"/>",
  chars "    </inertial>",
  chars "  </link>",
  chars "  <!-- Finger tip -->",
  chars "  <joint name=\"r_gripper_r_finger_tip_joint\" type=\"revolute\">",
  chars "    <axis xyz=\"0 0 1\"/>",
  chars "    <origin rpy=\"0 0 0\" xyz=\"0.09137 -0.00495 0\"/>",
  chars "    <!-- limits on passive finger and finger top joints without",
  chars "         transmission are not enforced by safety controllers.",
  chars "         The lower/upper limits and are enforced in PR2 simulation and",
  chars "         effort and velocity limits are ignored. This is also needed because",
  chars "         these joints are declared revolute rather than continuous.-->",
  chars "    <limit effort=\"1000.0\" lower=\"0.0\" upper=\"0.548\" velocity=\"0.5\"/>",
  chars "    <dynamics damping=\"0.001\"/>",
  chars "    <mimic joint=\"r_gripper_l_finger_joint\" multiplier=\"1\" offset=\"0\"/>",
  chars "    <parent link=\"r_gripper_r_finger_link\"/>",
  chars "    <child link=\"r_gripper_r_finger_tip_link\"/>",
  chars "  </joint>",
  chars "  <link name=\"r_gripper_r_finger_tip_link\">",
  chars "    <inertial>",
  chars "      <mass value=\"0.04419\"/>",
  chars "      <origin rpy=\"0 0 0\" xyz=\"0.00423 -0.00284 0.0\"/>",
  chars "      <inertia ixx=\"0.00000837047\" ixy=\"-0.00000583632\" ixz=\"0.0\" iyy=\"0.00000987067\" iyz=\"0.0\" izz=\"0.00001541768\"/>",
  chars "    </inertial>",
  chars "  </link>",
  chars "  <!-- Finger proximal digit -->",
  chars "  <!-- parallel link for simulating gripper constraints -->",
  chars "  <!-- fictitous joint that represents the gripper gap -->",
  chars "  <!-- effort is the linear force at the gripper gap",
  chars "         velocity limit is the linear velocity limit at the gripper gap",
  chars "         try and introduce a very stiff spring",
  chars "         The velocity limits are alpha tested.",
  chars "         The effort limits are somewhat inflated.",
  chars "         k_velocity was recently raised from 500.0 to 5000.0.  Tested on beta",
  chars "    -->",
  chars "  <joint name=\"r_gripper_joint\" type=\"prismatic\">",
  chars "    <parent link=\"r_gripper_r_finger_tip_link\"/>",
  chars "    <child link=\"r_gripper_l_finger_tip_frame\"/>",
  chars "    <axis xyz=\"0 1 0\"/>",
  chars "    <dynamics damping=\"10.0\"/>",
  chars "    <limit effort=\"1000.0\" lower=\"0.0\" upper=\"0.09\" velocity=\"0.2\"/>",
  chars "    <safety_controller k_position=\"20.0\" k_velocity=\"5000.0\" soft_lower_limit=\"-0.01\" soft_upper_limit=\"0.088\"/>",
  chars "  </joint>",
  chars "  <link name=\"r_gripper_l_finger_tip_frame\"/>",
  chars "  <joint name=\"l_shoulder_pan_joint\" type=\"revolute\">",
  chars "    <axis xyz=\"0 0 1\"/>",
  chars "    <origin rpy=\"0 0 0\" xyz=\"0.0 0.188 0.0\"/>",
  chars "    <!-- transform from parent link to this joint frame -->",
  chars "    <parent link=\"torso_lift_link\"/>",
  chars "    <child link=\"l_shoulder_pan_link\"/>",
  chars "    <limit effort=\"30\" lower=\"-0.714601836603\" upper=\"2.2853981634\" velocity=\"2.088\"/>",
  chars "    <!-- alpha tested velocity and effort limits -->",
  chars "    <dynamics damping=\"10.0\"/>",
  chars "    <safety_controller k_position=\"100\" k_velocity=\"10\" soft_lower_limit=\"-0.564601836603\" soft_upper_limit=\"2.1353981634\"/>",
  chars "    <!-- joint angle when the rising or the falling flag is activated on PR2 -->",
  chars "    <calibration rising=\"0.785398163397\"/>",
  chars "  </joint>",
  chars "  <link name=\"l_shoulder_pan_link\">",
  chars "    <inertial>",
  chars "      <mass value=\"25.799322\"/>",
  chars "      <origin rpy=\"0 0 0\" xyz=\"-0.001201 0.024513 -0.098231\"/>",
  chars "      <inertia ixx=\"0.866179142480\" ixy=\"-0.06086507933\" ixz=\"-0.12118061183\" iyy=\"0.87421714893\" iyz=\"-0.05886609911\" izz=\"0.27353821674\"/>",
  chars "    </inertial>",
  chars "  </link>",
  chars "  <!-- Shoulder lift -->"]

/-- data/pr2.urdf:1051-1200 -/
def text8 : List (List Char) := [
  chars "  <joint name=\"l_shoulder_lift_joint\" type=\"revolute\">",
  chars "    <axis xyz=\"0 1 0\"/>",
  chars "    <!-- Limits updated from Function's CAD values as of 2009_02_24 (link_data.xls) -->",
  chars "    <limit effort=\"30\" lower=\"-0.5236\" upper=\"1.3963\" velocity=\"2.082\"/>",
  chars "    <!-- alpha tested velocity and effort limits -->",
  chars "    <safety_controller k_position=\"100\" k_velocity=\"10\" soft_lower_limit=\"-0.3536\" soft_upper_limit=\"1.2963\"/>",
  chars "    <calibration falling=\"0.0\"/>",
  chars "    <dynamics damping=\"10.0\"/>",
  chars "    <origin rpy=\"0 0 0\" xyz=\"0.1 0 0\"/>",
  chars "    <parent link=\"l_shoulder_pan_link\"/>",
  chars "    <child link=\"l_shoulder_lift_link\"/>",
  chars "  </joint>",
  chars "  <link name=\"l_shoulder_lift_link\">",
  chars "    <inertial>",
  chars "      <mass value=\"2.74988\"/>",
  chars "      <origin rpy=\"0 0 0\" xyz=\"0.02195 -0.02664 -0.03127\"/>",
  chars "      <inertia ixx=\"0.02105584615\" ixy=\"0.00496704022\" ixz=\"-0.00194808955\" iyy=\"0.02127223737\" iyz=\"0.00110425490\" izz=\"0.01975753814\"/>",
  chars "    </inertial>",
  chars "  </link>",
  chars "  <joint name=\"l_upper_arm_roll_joint\" type=\"revolute\">",
  chars "    <axis xyz=\"1 0 0\"/>",
  chars "    <origin rpy=\"0 0 0\" xyz=\"0 0 0\"/>",
  chars "    <parent link=\"l_shoulder_lift_link\"/>",
  chars "    <child link=\"l_upper_arm_roll_link\"/>",
  chars "    <limit effort=\"30\" lower=\"-0.8\" upper=\"3.9\" velocity=\"3.27\"/>",
  chars "    <!-- alpha tested velocity and effort limits -->",
  chars "    <safety_controller k_position=\"100\" k_velocity=\"2\" soft_lower_limit=\"-0.65\" soft_upper_limit=\"3.75\"/>",
  chars "    <calibration rising=\"1.57079632679\"/>",
  chars "    <dynamics damping=\"0.1\"/>",
  chars "  </joint>",
  chars "  <link name=\"l_upper_arm_roll_link\">",
  chars "    <inertial>",
  chars "      <!-- dummy mass, to be removed -->",
  chars "      <mass value=\"0.1\"/>",
  chars "      <origin rpy=\"0 0 0\" xyz=\"0.0 0 0\"/>",
  chars "      <inertia ixx=\"0.01\" ixy=\"0.00\" ixz=\"0.00\" iyy=\"0.01\" iyz=\"0.00\" izz=\"0.01\"/>",
  chars "    </inertial>",
  chars "  </link>",
  chars "  <!-- Shoulder pan -->",
  chars "  <!-- Shoulder lift -->",
  chars "  <joint name=\"l_upper_arm_joint\" type=\"fixed\">",
  chars "    <origin rpy=\"0 0 0\" xyz=\"0 0 0\"/>",
  chars "    <parent link=\"l_upper_arm_roll_link\"/>",
  chars "    <child link=\"l_upper_arm_link\"/>",
  chars "  </joint>",
  chars "  <link name=\"l_upper_arm_link\">",
  chars "    <inertial>",
  chars "      <!-- NOTE:reflect==-1 for right side, reflect==1 for the left side -->",
  chars "      <mass value=\"6.01769\"/>",
  chars "      <origin xyz=\"0.21405 0.01658 -0.00057\"/>",
  chars "      <inertia ixx=\"0.01530603856\" ixy=\"-0.00339324862\" ixz=\"0.00060765455\" iyy=\"0.07473694455\" iyz=\"-0.00019953729\" izz=\"0.07601594191\"/>",
  chars "    </inertial>",
  chars "  </link>",
  chars "  <!-- Has upperarm link -->",
  chars "  <!-- No transmission, since this a fixed joint w/o actuator -->",
  chars "  <!-- forearm_roll_link is a fictitious link internal to elbow_flex_link, provides an attachment point for the actual forearm -->",
  chars "  <joint name=\"l_forearm_roll_joint\" type=\"continuous\">",
  chars "    <axis xyz=\"1 0 0\"/>",
  chars "    <limit effort=\"30\" velocity=\"3.6\"/>",
  chars "    <!-- alpha tested velocity and effort limits -->",
  chars "    <safety_controller k_velocity=\"1\"/>",
  chars "    <calibration rising=\"0.0\"/>",
  chars "    <dynamics damping=\"0.1\"/>",
  chars "    <origin rpy=\"0 0 0\" xyz=\"0 0 0\"/>",
  chars "    <parent link=\"l_elbow_flex_link\"/>",
  chars "    <child link=\"l_forearm_roll_link\"/>",
  chars "  </joint>",
  chars "  <!-- TODO: inertial tag should be optional -->",
  chars "  <link name=\"l_forearm_roll_link\">",
  chars "    <inertial>",
  chars "      <!-- dummy masses, to be removed -->",
  chars "      <mass value=\"0.1\"/>",
  chars "      <origin xyz=\"0 0 0\"/>",
  chars "      <inertia ixx=\"0.01\" ixy=\"0.00\" ixz=\"0.00\" iyy=\"0.01\" iyz=\"0.00\" izz=\"0.01\"/>",
  chars "    </inertial>",
  chars "  </link>",
  chars "  <!-- Elbow flex -->",
  chars "  <joint name=\"l_elbow_flex_joint\" type=\"revolute\">",
  chars "    <axis xyz=\"0 1 0\"/>",
  chars "    <!-- Note: Overtravel limits are 140, -7 degrees instead of 133, 0 -->",
  chars "    <limit effort=\"30\" lower=\"-2.3213\" upper=\"0.00\" velocity=\"3.3\"/>",
  chars "    <!-- alpha tested velocity and effort limits -->",
  chars "    <safety_controller k_position=\"100\" k_velocity=\"3\" soft_lower_limit=\"-2.1213\" soft_upper_limit=\"-0.15\"/>",
  chars "    <calibration falling=\"-1.1606\"/>",
  chars "    <dynamics damping=\"1.0\"/>",
  chars "    <origin rpy=\"0 0 0\" xyz=\"0.4 0 0\"/>",
  chars "    <parent link=\"l_upper_arm_link\"/>",
  chars "    <child link=\"l_elbow_flex_link\"/>",
  chars "  </joint>",
  chars "  <link name=\"l_elbow_flex_link\">",
  chars "    <inertial>",
  chars "      <mass value=\"1.90327\"/>",
  chars "      <origin xyz=\"0.01014 0.00032 -0.01211\"/>",
  chars "      <inertia ixx=\"0.00346541989\" ixy=\"0.00004066825\" ixz=\"0.00043171614\" iyy=\"0.00441606455\" iyz=\"-0.00003968914\" izz=\"0.00359156824\"/>",
  chars "    </inertial>",
  chars "  </link>",
  chars "  <!-- Elbow flex -->",
  chars "  <joint name=\"l_forearm_joint\" type=\"fixed\">",
  chars "    <origin rpy=\"0 0 0\" xyz=\"0 0 0\"/>",
  chars "    <!-- transform from parent link to this joint frame -->",
  chars "    <parent link=\"l_forearm_roll_link\"/>",
  chars "    <child link=\"l_forearm_link\"/>",
  chars "  </joint>",
  chars "  <link name=\"l_forearm_link\">",
  chars "    <inertial>",
  chars "      <mass value=\"2.57968\"/>",
  chars "      <origin xyz=\"0.18791 -0.00017 -0.00912\"/>",
  chars "      <inertia ixx=\"0.00364857222\" ixy=\"0.00005215877\" ixz=\"0.00071534842\" iyy=\"0.01507736897\" iyz=\"-0.00001310770\" izz=\"0.01659310749\"/>",
  chars "    </inertial>",
  chars "  </link>",
  chars "  <!-- Wrist flex -->",
  chars "  <joint name=\"l_wrist_flex_joint\" type=\"revolute\">",
  chars "    <axis xyz=\"0 1 0\"/>",
  chars "    <limit effort=\"10\" lower=\"-2.18\" upper=\"0.0\" velocity=\"3.078\"/>",
  chars "    <!-- alpha tested velocity and effort limits -->",
  chars "    <safety_controller k_position=\"20\" k_velocity=\"4\" soft_lower_limit=\"-2.0\" soft_upper_limit=\"-0.1\"/>",
  chars "    <dynamics damping=\"0.1\"/>",
  chars "    <calibration falling=\"-0.5410521\"/>",
  chars "    <origin rpy=\"0 0 0\" xyz=\"0.321 0 0\"/>",
  chars "    <parent link=\"l_forearm_link\"/>",
  chars "    <child link=\"l_wrist_flex_link\"/>",
  chars "  </joint>",
  chars "  <link name=\"l_wrist_flex_link\">",
  chars "    <inertial>",
  chars "      <mass value=\"0.61402\"/>",
  chars "      <origin xyz=\"-0.00157 0.0 -0.00075\"/>",
  chars "      <inertia ixx=\"0.00065165722\" ixy=\"0.00000028864\" ixz=\"0.00000303477\" iyy=\"0.00019824443\" iyz=\"-0.00000022645\" izz=\"0.00064450498\"/>",
  chars "    </inertial>",
  chars "  </link>",
  chars "  <!-- Wrist roll -->",
  chars "  <joint name=\"l_wrist_roll_joint\" type=\"continuous\">",
  chars "    <axis xyz=\"1 0 0\"/>",
  chars "    <limit effort=\"10\" velocity=\"3.6\"/>",
  chars "    <!-- alpha tested velocity and effort limits -->",
  chars "    <safety_controller k_velocity=\"2\"/>",
  chars "    <dynamics damping=\"0.1\"/>",
  chars "    <calibration rising=\"-1.57079632679\"/>",
  chars "    <origin rpy=\"0 0 0\" xyz=\"0 0 0\"/>",
  chars "    <parent link=\"l_wrist_flex_link\"/>",
  chars "    <child link=\"l_wrist_roll_link\"/>",
  chars "  </joint>",
  chars "  <link name=\"l_wrist_roll_link\">",
  chars "    <inertial>",
  chars "      <!-- dummy masses, to be removed.  wrist roll masses are on \"gripper_palm\" -->",
  chars "      <mass value=\"0.1\"/>",
  chars "      <origin xyz=\"0 0 0\"/>",
  chars "      <inertia ixx=\"0.01\" ixy=\"0\" ixz=\"0\" iyy=\"0.01\" iyz=\"0\" izz=\"0.01\"/>",
  chars "    </inertial>",
  chars "  </link>",
  chars "  <!-- Wrist flex , Wrist roll -->"]

/-- data/pr2.urdf:1201-1350 -/
def text9 : List (List Char) := [
  chars "  <joint name=\"l_gripper_palm_joint\" type=\"fixed\">",
  chars "    <origin rpy=\"0 0 0\" xyz=\"0 0 0\"/>",
  chars "    <parent link=\"l_wrist_roll_link\"/>",
  chars "    <child link=\"l_gripper_palm_link\"/>",
  chars "  </joint>",
  chars "  <link name=\"l_gripper_palm_link\">",
  chars "    <inertial>",
  chars "      <mass value=\"0.58007\"/>",
  chars "      <origin rpy=\"0 0 0\" xyz=\"0.06623 0.00053 -0.00119\"/>",
  chars "      <inertia ixx=\"0.00035223921\" ixy=\"-0.00001580476\" ixz=\"-0.00000091750\" iyy=\"0.00067741312\" iyz=\"-0.00000059554\" izz=\"0.00086563316\"/>",
  chars "    </inertial>",
  chars "  </link>",
  chars "  <joint name=\"l_gripper_led_joint\" type=\"fixed\">",
  chars "    <!--  Need to check if we need a positive or negative Z term -->",
  chars "    <origin xyz=\"0.0513 0.0 .0244\"/>",
  chars "    <parent link=\"l_gripper_palm_link\"/>",
  chars "    <child link=\"l_gripper_led_frame\"/>",
  chars "  </joint>",
  chars "  <link name=\"l_gripper_led_frame\"/>",
  chars "  <joint name=\"l_gripper_motor_accelerometer_joint\" type=\"fixed\">",
  chars "    <origin rpy=\"0 0 0\" xyz=\"0 0 0\"/>",
  chars "    <parent link=\"l_gripper_palm_link\"/>",
  chars "    <child link=\"l_gripper_motor_accelerometer_link\"/>",
  chars "  </joint>",
  chars "  <link name=\"l_gripper_motor_accelerometer_link\">",
  chars "    <inertial>",
  chars "      <mass value=\"0.001\"/>",
  chars "      <origin rpy=\"0 0 0\" xyz=\"0 0 0\"/>",
  chars "      <inertia ixx=\"0.001\" ixy=\"0.0\" ixz=\"0.0\" iyy=\"0.001\" iyz=\"0.0\" izz=\"0.001\"/>",
  chars "    </inertial>",
  chars "  </link>",
  chars "  <joint name=\"l_gripper_tool_joint\" type=\"fixed\">",
  chars "    <origin rpy=\"0 0 0\" xyz=\"0.18 0 0\"/>",
  chars "    <parent link=\"l_gripper_palm_link\"/>",
  chars "    <child link=\"l_gripper_tool_frame\"/>",
  chars "  </joint>",
  chars "  <link name=\"l_gripper_tool_frame\"/>",
  chars "  <!-- actuated motor screw joint -->",
  chars "  <link name=\"l_gripper_motor_slider_link\">",
  chars "    <inertial>",
  chars "      <mass value=\"0.01\"/>",
  chars "      <origin rpy=\"0 0 0\" xyz=\"0 0 0\"/>",
  chars "      <inertia ixx=\"0.001\" ixy=\"0.0\" ixz=\"0.0\" iyy=\"0.001\" iyz=\"0.0\" izz=\"0.001\"/>",
  chars "    </inertial>",
  chars "    <!-- for debugging only",
  chars "      <visual>",
  chars "        <origin xyz=\"0 0 0\" rpy=\"1.5708 0 0\" />",
  chars "        <geometry>",
  chars "          <cylinder length=\"0.002\" radius=\"0.025\"/>",
  chars "        </geometry>",
  chars "      </visual>",
  chars "      <collision>",
  chars "        <origin xyz=\"0 0 0\" rpy=\"1.5708 0 0\" />",
  chars "        <geometry>",
  chars "          <cylinder length=\"0.002\" radius=\"0.025\"/>",
  chars "        </geometry>",
  chars "      </collision>",
  chars "      -->",
  chars "  </link>",
  chars "  <joint name=\"l_gripper_motor_slider_joint\" type=\"prismatic\">",
  chars "    <origin rpy=\"0 0 0\" xyz=\"0.16828 0 0\"/>",
  chars "    <axis xyz=\"1 0 0\"/>",
  chars "    <parent link=\"l_gripper_palm_link\"/>",
  chars "    <child link=\"l_gripper_motor_slider_link\"/>",
  chars "    <limit effort=\"1000.0\" lower=\"-0.1\" upper=\"0.1\" velocity=\"0.2\"/>",
  chars "  </joint>",
  chars "  <link name=\"l_gripper_motor_screw_link\">",
  chars "    <inertial>",
  chars "      <mass value=\"0.01\"/>",
  chars "      <origin rpy=\"0 0 0\" xyz=\"0 0 0\"/>",
  chars "      <inertia ixx=\"0.0001\" ixy=\"0.0\" ixz=\"0.0\" iyy=\"0.0001\" iyz=\"0.0\" izz=\"0.0001\"/>",
  chars "    </inertial>",
  chars "    <!-- for debugging only",
  chars "      <visual>",
  chars "        <origin xyz=\"0 0 0\" rpy=\"0 0 0\" />",
  chars "        <geometry>",
  chars "          <box size=\"0.05 0.001 0.05\" />",
  chars "        </geometry>",
  chars "      </visual>",
  chars "      <collision>",
  chars "        <origin xyz=\"0 0 0\" rpy=\"0 0 0\" />",
  chars "        <geometry>",
  chars "          <box size=\"0.05 0.001 0.05\" />",
  chars "        </geometry>",
  chars "      </collision>",
  chars "      -->",
  chars "  </link>",
  chars "  <joint name=\"l_gripper_motor_screw_joint\" type=\"continuous\">",
  chars "    <origin rpy=\"0 0 0\" xyz=\"0.0 0 0\"/>",
  chars "    <axis xyz=\"0 1 0\"/>",
  chars "    <parent link=\"l_gripper_motor_slider_link\"/>",
  chars "    <child link=\"l_gripper_motor_screw_link\"/>",
  chars "    <dynamics damping=\"0.0001\"/>",
  chars "  </joint>",
  chars "  <!-- Finger proximal digit -->",
  chars "  <joint name=\"l_gripper_l_finger_joint\" type=\"revolute\">",
  chars "    <axis xyz=\"0 0 1\"/>",
  chars "    <!-- limits on passive finger and finger top joints without",
  chars "         transmission are not enforced by safety controllers.",
  chars "         The lower/upper limits and are enforced in PR2 simulation and",
  chars "         effort and velocity limits are ignored. This is also needed because",
  chars "         these joints are declared revolute rather than continuous.-->",
  chars "    <limit effort=\"1000.0\" lower=\"0.0\" upper=\"0.548\" velocity=\"0.5\"/>",
  chars "    <dynamics damping=\"0.02\"/>",
  chars "    <origin rpy=\"0 0 0\" xyz=\"0.07691 0.01 0\"/>",
  chars "    <parent link=\"l_gripper_palm_link\"/>",
  chars "    <child link=\"l_gripper_l_finger_link\"/>",
  chars "  </joint>",
  chars "  <link name=\"l_gripper_l_finger_link\">",
  chars "    <inertial>",
  chars "      <mass value=\"0.17126\"/>",
  chars "      <origin rpy=\"0 0 0\" xyz=\"0.03598 0.01730 -0.00164\"/>",
  chars "      <inertia ixx=\"0.00007756198\" ixy=\"0.00000149095\" ixz=\"-0.00000983385\" iyy=\"0.00019708305\" iyz=\"-0.00000306125\" izz=\"0.00018105446\"/>",
  chars "    </inertial>",
  chars "  </link>",
  chars "  <!-- Finger proximal digit -->",
  chars "  <joint name=\"l_gripper_r_finger_joint\" type=\"revolute\">",
  chars "    <axis xyz=\"0 0 -1\"/>",
  chars "    <origin rpy=\"0 0 0\" xyz=\"0.07691 -0.01 0\"/>",
  chars "    <!-- limits on passive finger and finger top joints without",
  chars "         transmission are not enforced by safety controllers.",
  chars "         The lower/upper limits and are enforced in PR2 simulation and",
  chars "         effort and velocity limits are ignored. This is also needed because",
  chars "         these joints are declared revolute rather than continuous.-->",
  chars "    <limit effort=\"1000.0\" lower=\"0.0\" upper=\"0.548\" velocity=\"0.5\"/>",
  chars "    <dynamics damping=\"0.02\"/>",
  chars "    <mimic joint=\"l_gripper_l_finger_joint\" multiplier=\"1\" offset=\"0\"/>",
  chars "    <parent link=\"l_gripper_palm_link\"/>",
  chars "    <child link=\"l_gripper_r_finger_link\"/>",
  chars "  </joint>",
  chars "  <link name=\"l_gripper_r_finger_link\">",
  chars "    <inertial>",
  chars "      <mass value=\"0.17389\"/>",
  chars "      <origin rpy=\"0 0 0\" xyz=\"0.03576 -0.01736 -0.00095\"/>",
  chars "      <inertia ixx=\"0.00007738410\" ixy=\"-0.00000209309\" ixz=\"-0.00000836228\" iyy=\"0.00019847383\" iyz=\"0.00000246110\" izz=\"0.00018106988\"/>",
  chars "    </inertial>",
  chars "  </link>",
  chars "  <!-- Finger tip -->",
  chars "  <joint name=\"l_gripper_l_finger_tip_joint\" type=\"revolute\">",
  chars "    <axis xyz=\"0 0 -1\"/>",
  chars "    <origin rpy=\"0 0 0\" xyz=\"0.09137 0.00495 0\"/>",
  chars "    <!-- limits on passive finger and finger top joints without",
  chars "         transmission are not enforced by safety controllers.",
  chars "         The lower/upper limits and are enforced in PR2 simulation and",
  chars "         effort and velocity limits are ignored. This is also needed because",
  chars "         these joints are declared revolute rather than continuous.-->",
  chars "    <limit effort=\"1000.0\" lower=\"0.0\" upper=\"0.548\" velocity=\"0.5\"/>",
  chars "    <dynamics damping=\"0.001\"/>",
  chars "    <mimic joint=\"l_gripper_l_finger_joint\" multiplier=\"1\" offset=\"0\"/>",
  chars "    <parent link=\"l_gripper_l_finger_link\"/>"]

/-- data/pr2.urdf:1351-1434 -/
def text10 : List (List Char) := [
  chars "    <child link=\"l_gripper_l_finger_tip_link\"/>",
  chars "  </joint>",
  chars "  <link name=\"l_gripper_l_finger_tip_link\">",
  chars "    <inertial>",
  chars "      <mass value=\"0.04419\"/>",
  chars "      <origin rpy=\"0 0 0\" xyz=\"0.00423 0.00284 0.0\"/>",
  chars "      <inertia ixx=\"0.00000837047\" ixy=\"0.00000583632\" ixz=\"0.0\" iyy=\"0.00000987067\" iyz=\"0.0\" izz=\"0.00001541768\"/>",
  chars "    </inertial>",
  chars "  </link>",
  chars "  <!-- Finger tip -->",
  chars "  <joint name=\"l_gripper_r_finger_tip_joint\" type=\"revolute\">",
  chars "    <axis xyz=\"0 0 1\"/>",
  chars "    <origin rpy=\"0 0 0\" xyz=\"0.09137 -0.00495 0\"/>",
  chars "    <!-- limits on passive finger and finger top joints without",
  chars "         transmission are not enforced by safety controllers.",
  chars "         The lower/upper limits and are enforced in PR2 simulation and",
  chars "         effort and velocity limits are ignored. This is also needed because",
  chars "         these joints are declared revolute rather than continuous.-->",
  chars "    <limit effort=\"1000.0\" lower=\"0.0\" upper=\"0.548\" velocity=\"0.5\"/>",
  chars "    <dynamics damping=\"0.001\"/>",
  chars "    <mimic joint=\"l_gripper_l_finger_joint\" multiplier=\"1\" offset=\"0\"/>",
  chars "    <parent link=\"l_gripper_r_finger_link\"/>",
  chars "    <child link=\"l_gripper_r_finger_tip_link\"/>",
  chars "  </joint>",
  chars "  <link name=\"l_gripper_r_finger_tip_link\">",
  chars "    <inertial>",
  chars "      <mass value=\"0.04419\"/>",
  chars "      <origin rpy=\"0 0 0\" xyz=\"0.00423 -0.00284 0.0\"/>",
  chars "      <inertia ixx=\"0.00000837047\" ixy=\"-0.00000583632\" ixz=\"0.0\" iyy=\"0.00000987067\" iyz=\"0.0\" izz=\"0.00001541768\"/>",
  chars "    </inertial>",
  chars "  </link>",
  chars "  <!-- Finger proximal digit -->",
  chars "  <!-- Finger proximal digit -->",
  chars "  <!-- fictitous joint that represents the gripper gap -->",
  chars "  <joint name=\"l_gripper_joint\" type=\"prismatic\">",
  chars "    <parent link=\"l_gripper_r_finger_tip_link\"/>",
  chars "    <child link=\"l_gripper_l_finger_tip_frame\"/>",
  chars "    <axis xyz=\"0 1 0\"/>",
  chars "    <dynamics damping=\"10.0\"/>",
  chars "    <limit effort=\"1000.0\" lower=\"0.0\" upper=\"0.09\" velocity=\"0.2\"/>",
  chars "    <safety_controller k_position=\"20.0\" k_velocity=\"5000.0\" soft_lower_limit=\"-0.01\" soft_upper_limit=\"0.088\"/>",
  chars "  </joint>",
  chars "  <!-- This link is the same as the l_finger_tip_link,",
  chars "   but because the urdf does not support graph structures,",
  chars "   this link exists twice -->",
  chars "  <link name=\"l_gripper_l_finger_tip_frame\"/>",
  chars "  <joint name=\"l_forearm_cam_frame_joint\" type=\"fixed\">",
  chars "    <origin rpy=\"-1.57079632679 -0.562868683768 0\" xyz=\".135 0 .044\"/>",
  chars "    <parent link=\"l_forearm_roll_link\"/>",
  chars "    <child link=\"l_forearm_cam_frame\"/>",
  chars "  </joint>",
  chars "  <link name=\"l_forearm_cam_frame\">",
  chars "    <inertial>",
  chars "      <mass value=\"0.01\"/>",
  chars "      <origin xyz=\"0 0 0\"/>",
  chars "      <inertia ixx=\"0.001\" ixy=\"0.0\" ixz=\"0.0\" iyy=\"0.001\" iyz=\"0.0\" izz=\"0.001\"/>",
  chars "    </inertial>",
  chars "  </link>",
  chars "  <joint name=\"l_forearm_cam_optical_frame_joint\" type=\"fixed\">",
  chars "    <origin rpy=\"-1.57079632679 0.0 -1.57079632679\" xyz=\"0 0 0\"/>",
  chars "    <parent link=\"l_forearm_cam_frame\"/>",
  chars "    <child link=\"l_forearm_cam_optical_frame\"/>",
  chars "  </joint>",
  chars "  <link name=\"l_forearm_cam_optical_frame\"/>",
  chars "  <joint name=\"r_forearm_cam_frame_joint\" type=\"fixed\">",
  chars "    <origin rpy=\"1.57079632679 -0.562868683768 0\" xyz=\".135 0 .044\"/>",
  chars "    <parent link=\"r_forearm_roll_link\"/>",
  chars "    <child link=\"r_forearm_cam_frame\"/>",
  chars "  </joint>",
  chars "  <link name=\"r_forearm_cam_frame\">",
  chars "    <inertial>",
  chars "      <mass value=\"0.01\"/>",
  chars "      <origin xyz=\"0 0 0\"/>",
  chars "      <inertia ixx=\"0.001\" ixy=\"0.0\" ixz=\"0.0\" iyy=\"0.001\" iyz=\"0.0\" izz=\"0.001\"/>",
  chars "    </inertial>",
  chars "  </link>",
  chars "  <joint name=\"r_forearm_cam_optical_frame_joint\" type=\"fixed\">",
  chars "    <origin rpy=\"-1.57079632679 0.0 -1.57079632679\" xyz=\"0 0 0\"/>",
  chars "    <parent link=\"r_forearm_cam_frame\"/>",
  chars "    <child link=\"r_forearm_cam_optical_frame\"/>",
  chars "  </joint>",
  chars "  <link name=\"r_forearm_cam_optical_frame\"/>",
  chars "</robot>",
  chars ""]

/-- data/pr2.urdf -/
def text : List Char := lines (text1 ++ text2 ++ text3 ++ text4 ++ text5 ++ text6 ++ text7 ++ text8 ++ text9 ++ text10)

/-- the links of `data/pr2.urdf`: name and inertial data (origin, mass, ixx, ixy, ixz, iyy, iyz, izz) -/
def links : List LinkRow := [
  ⟨chars "base_link", some ⟨some ⟨some ⟨-0.061, 0.0, 0.1465⟩, none⟩, 116.0, 5.652232699207, -0.009719934438, 1.293988226423, 5.669473158652, -0.007379583694, 3.683196351726⟩⟩,
  ⟨chars "base_footprint", some ⟨some ⟨some ⟨0, 0, 0⟩, none⟩, 1.0, 0.01, 0.0, 0.0, 0.01, 0.0, 0.01⟩⟩,
  ⟨chars "base_bellow_link", some ⟨some ⟨some ⟨0, 0, 0⟩, none⟩, 1.0, 0.01, 0.0, 0.0, 0.01, 0.0, 0.01⟩⟩,
  ⟨chars "base_laser_link", some ⟨some ⟨some ⟨0, 0, 0⟩, some ⟨0, 0, 0⟩⟩, 0.001, 0.0001, 0, 0, 0.000001, 0, 0.0001⟩⟩,
  ⟨chars "fl_caster_rotation_link", some ⟨some ⟨some ⟨0, 0, 0.07⟩, none⟩, 3.473082, 0.012411765597, -0.000711733678, 0.00050272983, 0.015218160428, -0.000004273467, 0.011763977943⟩⟩,
  ⟨chars "fl_caster_l_wheel_link", some ⟨some ⟨some ⟨0, 0, 0⟩, none⟩, 0.44036, 0.012411765597, -0.000711733678, 0.00050272983, 0.015218160428, -0.000004273467, 0.011763977943⟩⟩,
  ⟨chars "fl_caster_r_wheel_link", some ⟨some ⟨some ⟨0, 0, 0⟩, none⟩, 0.44036, 0.012411765597, -0.000711733678, 0.00050272983, 0.015218160428, -0.000004273467, 0.011763977943⟩⟩,
  ⟨chars "fr_caster_rotation_link", some ⟨some ⟨some ⟨0, 0, 0.07⟩, none⟩, 3.473082, 0.012411765597, -0.000711733678, 0.00050272983, 0.015218160428, -0.000004273467, 0.011763977943⟩⟩,
  ⟨chars "fr_caster_l_wheel_link", some ⟨some ⟨some ⟨0, 0, 0⟩, none⟩, 0.44036, 0.012411765597, -0.000711733678, 0.00050272983, 0.015218160428, -0.000004273467, 0.011763977943⟩⟩,
  ⟨chars "fr_caster_r_wheel_link", some ⟨some ⟨some ⟨0, 0, 0⟩, none⟩, 0.44036, 0.012411765597, -0.000711733678, 0.00050272983, 0.015218160428, -0.000004273467, 0.011763977943⟩⟩,
  ⟨chars "bl_caster_rotation_link", some ⟨some ⟨some ⟨0, 0, 0.07⟩, none⟩, 3.473082, 0.012411765597, -0.000711733678, 0.00050272983, 0.015218160428, -0.000004273467, 0.011763977943⟩⟩,
  ⟨chars "bl_caster_l_wheel_link", some ⟨some ⟨some ⟨0, 0, 0⟩, none⟩, 0.44036, 0.012411765597, -0.000711733678, 0.00050272983, 0.015218160428, -0.000004273467, 0.011763977943⟩⟩,
  ⟨chars "bl_caster_r_wheel_link", some ⟨some ⟨some ⟨0, 0, 0⟩, none⟩, 0.44036, 0.012411765597, -0.000711733678, 0.00050272983, 0.015218160428, -0.000004273467, 0.011763977943⟩⟩,
  ⟨chars "br_caster_rotation_link", some ⟨some ⟨some ⟨0, 0, 0.07⟩, none⟩, 3.473082, 0.012411765597, -0.000711733678, 0.00050272983, 0.015218160428, -0.000004273467, 0.011763977943⟩⟩,
  ⟨chars "br_caster_l_wheel_link", some ⟨some ⟨some ⟨0, 0, 0⟩, none⟩, 0.44036, 0.012411765597, -0.000711733678, 0.00050272983, 0.015218160428, -0.000004273467, 0.011763977943⟩⟩,
  ⟨chars "br_caster_r_wheel_link", some ⟨some ⟨some ⟨0, 0, 0⟩, none⟩, 0.44036, 0.012411765597, -0.000711733678, 0.00050272983, 0.015218160428, -0.000004273467, 0.011763977943⟩⟩,
  ⟨chars "torso_lift_link", some ⟨some ⟨some ⟨-0.1, 0, -0.0885⟩, none⟩, 36.248046, 2.771653750257, 0.004284522609, -0.160418504506, 2.510019507959, 0.029664468704, 0.526432355569⟩⟩,
  ⟨chars "l_torso_lift_side_plate_link", some ⟨some ⟨some ⟨-0.0625, 0.0, 0.05⟩, none⟩, 0.1, 0.001, 0.0, 0.0, 0.001, 0.0, 0.001⟩⟩,
  ⟨chars "r_torso_lift_side_plate_link", some ⟨some ⟨some ⟨-0.0625, 0.0, 0.05⟩, none⟩, 0.1, 0.001, 0.0, 0.0, 0.001, 0.0, 0.001⟩⟩,
  ⟨chars "torso_lift_motor_screw_link", some ⟨some ⟨some ⟨0, 0, 0⟩, some ⟨0, 0, 0⟩⟩, 1.0, 0.001, 0.0, 0.0, 0.001, 0.0, 0.001⟩⟩,
  ⟨chars "imu_link", some ⟨some ⟨some ⟨0, 0, 0⟩, some ⟨0, 0, 0⟩⟩, 0.001, 0.0001, 0, 0, 0.000001, 0, 0.0001⟩⟩,
  ⟨chars "head_pan_link", some ⟨some ⟨some ⟨0.010907, 0.031693, 0.090507⟩, some ⟨0, 0, 0⟩⟩, 6.339, 0.032497592, 0.00063604088, 0.0025851534, 0.046545627, -0.0024534295, 0.057652724⟩⟩,
  ⟨chars "head_tilt_link", some ⟨some ⟨some ⟨0.001716, -0.019556, 0.055002⟩, some ⟨0, 0, 0⟩⟩, 4.479, 0.024223222, 0.00062063507, -0.000096909696, 0.054723086, 0.00279702400, 0.067306377⟩⟩,
  ⟨chars "head_plate_frame", some ⟨some ⟨some ⟨0, 0, 0⟩, some ⟨0, 0, 0⟩⟩, 0.01, 0.001, 0.0, 0.0, 0.001, 0.0, 0.001⟩⟩,
  ⟨chars "sensor_mount_link", some ⟨some ⟨some ⟨0, 0, 0⟩, some ⟨0, 0, 0⟩⟩, 0.05, 0.001, 0.0, 0.0, 0.001, 0.0, 0.01⟩⟩,
  ⟨chars "high_def_frame", some ⟨some ⟨some ⟨0, 0, 0⟩, some ⟨0, 0, 0⟩⟩, 0.01, 0.001, 0.0, 0.0, 0.001, 0.0, 0.001⟩⟩,
  ⟨chars "high_def_optical_frame", some ⟨some ⟨some ⟨0, 0, 0⟩, some ⟨0, 0, 0⟩⟩, 0.01, 0.001, 0.0, 0.0, 0.001, 0.0, 0.001⟩⟩,
  ⟨chars "double_stereo_link", some ⟨some ⟨some ⟨0, 0, 0⟩, some ⟨0, 0, 0⟩⟩, 0.1, 0.001, 0.0, 0.0, 0.001, 0.0, 0.01⟩⟩,
  ⟨chars "wide_stereo_link", some ⟨some ⟨some ⟨0, 0, 0⟩, some ⟨0, 0, 0⟩⟩, 0.1, 0.01, 0, 0, 0.01, 0, 0.01⟩⟩,
  ⟨chars "wide_stereo_optical_frame", none⟩,
  ⟨chars "wide_stereo_l_stereo_camera_frame", some ⟨some ⟨some ⟨0, 0, 0⟩, none⟩, 0.01, 0.001, 0.0, 0.0, 0.001, 0.0, 0.001⟩⟩,
  ⟨chars "wide_stereo_l_stereo_camera_optical_frame", none⟩,
  ⟨chars "wide_stereo_r_stereo_camera_frame", some ⟨some ⟨some ⟨0, 0, 0⟩, none⟩, 0.01, 0.001, 0.0, 0.0, 0.001, 0.0, 0.001⟩⟩,
  ⟨chars "wide_stereo_r_stereo_camera_optical_frame", none⟩,
  ⟨chars "narrow_stereo_link", some ⟨some ⟨some ⟨0, 0, 0⟩, some ⟨0, 0, 0⟩⟩, 0.1, 0.01, 0, 0, 0.01, 0, 0.01⟩⟩,
  ⟨chars "narrow_stereo_optical_frame", none⟩,
  ⟨chars "narrow_stereo_l_stereo_camera_frame", some ⟨some ⟨some ⟨0, 0, 0⟩, none⟩, 0.01, 0.001, 0.0, 0.0, 0.001, 0.0, 0.001⟩⟩,
  ⟨chars "narrow_stereo_l_stereo_camera_optical_frame", none⟩,
  ⟨chars "narrow_stereo_r_stereo_camera_frame", some ⟨some ⟨some ⟨0, 0, 0⟩, none⟩, 0.01, 0.001, 0.0, 0.0, 0.001, 0.0, 0.001⟩⟩,
  ⟨chars "narrow_stereo_r_stereo_camera_optical_frame", none⟩,
  ⟨chars "projector_wg6802418_frame", some ⟨some ⟨some ⟨0, 0, 0⟩, some ⟨0, 0, 0⟩⟩, 0.01, 0.001, 0.0, 0.0, 0.001, 0.0, 0.001⟩⟩,
  ⟨chars "projector_wg6802418_child_frame", some ⟨some ⟨some ⟨0, 0, 0⟩, some ⟨0, 0, 0⟩⟩, 0.01, 0.001, 0.0, 0.0, 0.001, 0.0, 0.001⟩⟩,
  ⟨chars "laser_tilt_mount_link", some ⟨some ⟨some ⟨-0.001136, 0.00167, -0.00713⟩, some ⟨0, 0, 0⟩⟩, 0.591, 0.001195273, 0.000023087, 0.000037467, 0.001083956, 0.000034906, 0.000795014⟩⟩,
  ⟨chars "laser_tilt_link", some ⟨some ⟨some ⟨0, 0, 0⟩, some ⟨0, 0, 0⟩⟩, 0.001, 0.0001, 0, 0, 0.000001, 0, 0.0001⟩⟩,
  ⟨chars "r_shoulder_pan_link", some ⟨some ⟨some ⟨-0.001201, 0.024513, -0.098231⟩, some ⟨0, 0, 0⟩⟩, 25.799322, 0.866179142480, -0.06086507933, -0.12118061183, 0.87421714893, -0.05886609911, 0.27353821674⟩⟩,
  ⟨chars "r_shoulder_lift_link", some ⟨some ⟨some ⟨0.02195, -0.02664, -0.03127⟩, some ⟨0, 0, 0⟩⟩, 2.74988, 0.02105584615, 0.00496704022, -0.00194808955, 0.02127223737, 0.00110425490, 0.01975753814⟩⟩,
  ⟨chars "r_upper_arm_roll_link", some ⟨some ⟨some ⟨0.0, 0, 0⟩, some ⟨0, 0, 0⟩⟩, 0.1, 0.01, 0.00, 0.00, 0.01, 0.00, 0.01⟩⟩,
  ⟨chars "r_upper_arm_link", some ⟨some ⟨some ⟨0.21398, -0.01621, -0.0002⟩, none⟩, 6.01769, 0.01537748957, 0.00375711247, -0.00070852914, 0.0747367044, -0.0001793645, 0.07608763307⟩⟩,
  ⟨chars "r_forearm_roll_link", some ⟨some ⟨some ⟨0, 0, 0⟩, none⟩, 0.1, 0.01, 0.00, 0.00, 0.01, 0.00, 0.01⟩⟩,
  ⟨chars "r_elbow_flex_link", some ⟨some ⟨some ⟨0.01014, 0.00032, -0.01211⟩, none⟩, 1.90327, 0.00346541989, 0.00004066825, 0.00043171614, 0.00441606455, -0.00003968914, 0.00359156824⟩⟩,
  ⟨chars "r_forearm_link", some ⟨some ⟨some ⟨0.18791, -0.00017, -0.00912⟩, none⟩, 2.57968, 0.00364857222, 0.00005215877, 0.00071534842, 0.01507736897, -0.00001310770, 0.01659310749⟩⟩,
  ⟨chars "r_wrist_flex_link", some ⟨some ⟨some ⟨-0.00157, 0.0, -0.00075⟩, none⟩, 0.61402, 0.00065165722, 0.00000028864, 0.00000303477, 0.00019824443, -0.00000022645, 0.00064450498⟩⟩,
  ⟨chars "r_wrist_roll_link", some ⟨some ⟨some ⟨0, 0, 0⟩, none⟩, 0.1, 0.01, 0, 0, 0.01, 0, 0.01⟩⟩,
  ⟨chars "r_gripper_palm_link", some ⟨some ⟨some ⟨0.06623, 0.00053, -0.00119⟩, some ⟨0, 0, 0⟩⟩, 0.58007, 0.00035223921, -0.00001580476, -0.00000091750, 0.00067741312, -0.00000059554, 0.00086563316⟩⟩,
  ⟨chars "r_gripper_led_frame", none⟩,
  ⟨chars "r_gripper_motor_accelerometer_link", some ⟨some ⟨some ⟨0, 0, 0⟩, some ⟨0, 0, 0⟩⟩, 0.001, 0.001, 0.0, 0.0, 0.001, 0.0, 0.001⟩⟩,
  ⟨chars "r_gripper_tool_frame", none⟩,
  ⟨chars "r_gripper_motor_slider_link", some ⟨some ⟨some ⟨0, 0, 0⟩, some ⟨0, 0, 0⟩⟩, 0.01, 0.001, 0.0, 0.0, 0.001, 0.0, 0.001⟩⟩,
  ⟨chars "r_gripper_motor_screw_link", some ⟨some ⟨some ⟨0, 0, 0⟩, some ⟨0, 0, 0⟩⟩, 0.01, 0.0001, 0.0, 0.0, 0.0001, 0.0, 0.0001⟩⟩,
  ⟨chars "r_gripper_l_finger_link", some ⟨some ⟨some ⟨0.03598, 0.01730, -0.00164⟩, some ⟨0, 0, 0⟩⟩, 0.17126, 0.00007756198, 0.00000149095, -0.00000983385, 0.00019708305, -0.00000306125, 0.00018105446⟩⟩,
  ⟨chars "r_gripper_r_finger_link", some ⟨some ⟨some ⟨0.03576, -0.01736, -0.00095⟩, some ⟨0, 0, 0⟩⟩, 0.17389, 0.00007738410, -0.00000209309, -0.00000836228, 0.00019847383, 0.00000246110, 0.00018106988⟩⟩,
  ⟨chars "r_gripper_l_finger_tip_link", some ⟨some ⟨some ⟨0.00423, 0.00284, 0.0⟩, some ⟨0, 0, 0⟩⟩, 0.04419, 0.00000837047, 0.00000583632, 0.0, 0.00000987067, 0.0, 0.00001541768⟩⟩,
  ⟨chars "r_gripper_r_finger_tip_link", some ⟨some ⟨some ⟨0.00423, -0.00284, 0.0⟩, some ⟨0, 0, 0⟩⟩, 0.04419, 0.00000837047, -0.00000583632, 0.0, 0.00000987067, 0.0, 0.00001541768⟩⟩,
  ⟨chars "r_gripper_l_finger_tip_frame", none⟩,
  ⟨chars "l_shoulder_pan_link", some ⟨some ⟨some ⟨-0.001201, 0.024513, -0.098231⟩, some ⟨0, 0, 0⟩⟩, 25.799322, 0.866179142480, -0.06086507933, -0.12118061183, 0.87421714893, -0.05886609911, 0.27353821674⟩⟩,
  ⟨chars "l_shoulder_lift_link", some ⟨some ⟨some ⟨0.02195, -0.02664, -0.03127⟩, some ⟨0, 0, 0⟩⟩, 2.74988, 0.02105584615, 0.00496704022, -0.00194808955, 0.02127223737, 0.00110425490, 0.01975753814⟩⟩,
  ⟨chars "l_upper_arm_roll_link", some ⟨some ⟨some ⟨0.0, 0, 0⟩, some ⟨0, 0, 0⟩⟩, 0.1, 0.01, 0.00, 0.00, 0.01, 0.00, 0.01⟩⟩,
  ⟨chars "l_upper_arm_link", some ⟨some ⟨some ⟨0.21405, 0.01658, -0.00057⟩, none⟩, 6.01769, 0.01530603856, -0.00339324862, 0.00060765455, 0.07473694455, -0.00019953729, 0.07601594191⟩⟩,
  ⟨chars "l_forearm_roll_link", some ⟨some ⟨some ⟨0, 0, 0⟩, none⟩, 0.1, 0.01, 0.00, 0.00, 0.01, 0.00, 0.01⟩⟩,
  ⟨chars "l_elbow_flex_link", some ⟨some ⟨some ⟨0.01014, 0.00032, -0.01211⟩, none⟩, 1.90327, 0.00346541989, 0.00004066825, 0.00043171614, 0.00441606455, -0.00003968914, 0.00359156824⟩⟩,
  ⟨chars "l_forearm_link", some ⟨some ⟨some ⟨0.18791, -0.00017, -0.00912⟩, none⟩, 2.57968, 0.00364857222, 0.00005215877, 0.00071534842, 0.01507736897, -0.00001310770, 0.01659310749⟩⟩,
  ⟨chars "l_wrist_flex_link", some ⟨some ⟨some ⟨-0.00157, 0.0, -0.00075⟩, none⟩, 0.61402, 0.00065165722, 0.00000028864, 0.00000303477, 0.00019824443, -0.00000022645, 0.00064450498⟩⟩,
  ⟨chars "l_wrist_roll_link", some ⟨some ⟨some ⟨0, 0, 0⟩, none⟩, 0.1, 0.01, 0, 0, 0.01, 0, 0.01⟩⟩,
  ⟨chars "l_gripper_palm_link", some ⟨some ⟨some ⟨0.06623, 0.00053, -0.00119⟩, some ⟨0, 0, 0⟩⟩, 0.58007, 0.00035223921, -0.00001580476, -0.00000091750, 0.00067741312, -0.00000059554, 0.00086563316⟩⟩,
  ⟨chars "l_gripper_led_frame", none⟩,
  ⟨chars "l_gripper_motor_accelerometer_link", some ⟨some ⟨some ⟨0, 0, 0⟩, some ⟨0, 0, 0⟩⟩, 0.001, 0.001, 0.0, 0.0, 0.001, 0.0, 0.001⟩⟩,
  ⟨chars "l_gripper_tool_frame", none⟩,
  ⟨chars "l_gripper_motor_slider_link", some ⟨some ⟨some ⟨0, 0, 0⟩, some ⟨0, 0, 0⟩⟩, 0.01, 0.001, 0.0, 0.0, 0.001, 0.0, 0.001⟩⟩,
  ⟨chars "l_gripper_motor_screw_link", some ⟨some ⟨some ⟨0, 0, 0⟩, some ⟨0, 0, 0⟩⟩, 0.01, 0.0001, 0.0, 0.0, 0.0001, 0.0, 0.0001⟩⟩,
  ⟨chars "l_gripper_l_finger_link", some ⟨some ⟨some ⟨0.03598, 0.01730, -0.00164⟩, some ⟨0, 0, 0⟩⟩, 0.17126, 0.00007756198, 0.00000149095, -0.00000983385, 0.00019708305, -0.00000306125, 0.00018105446⟩⟩,
  ⟨chars "l_gripper_r_finger_link", some ⟨some ⟨some ⟨0.03576, -0.01736, -0.00095⟩, some ⟨0, 0, 0⟩⟩, 0.17389, 0.00007738410, -0.00000209309, -0.00000836228, 0.00019847383, 0.00000246110, 0.00018106988⟩⟩,
  ⟨chars "l_gripper_l_finger_tip_link", some ⟨some ⟨some ⟨0.00423, 0.00284, 0.0⟩, some ⟨0, 0, 0⟩⟩, 0.04419, 0.00000837047, 0.00000583632, 0.0, 0.00000987067, 0.0, 0.00001541768⟩⟩,
  ⟨chars "l_gripper_r_finger_tip_link", some ⟨some ⟨some ⟨0.00423, -0.00284, 0.0⟩, some ⟨0, 0, 0⟩⟩, 0.04419, 0.00000837047, -0.00000583632, 0.0, 0.00000987067, 0.0, 0.00001541768⟩⟩,
  ⟨chars "l_gripper_l_finger_tip_frame", none⟩,
  ⟨chars "l_forearm_cam_frame", some ⟨some ⟨some ⟨0, 0, 0⟩, none⟩, 0.01, 0.001, 0.0, 0.0, 0.001, 0.0, 0.001⟩⟩,
  ⟨chars "l_forearm_cam_optical_frame", none⟩,
  ⟨chars "r_forearm_cam_frame", some ⟨some ⟨some ⟨0, 0, 0⟩, none⟩, 0.01, 0.001, 0.0, 0.0, 0.001, 0.0, 0.001⟩⟩,
  ⟨chars "r_forearm_cam_optical_frame", none⟩]

/-- the joints of `data/pr2.urdf`: name, type, parent, child, origin, axis, limits (lower, upper, effort, velocity) -/
def joints : List JointRow := [
  ⟨chars "base_footprint_joint", .fixed, chars "base_footprint", chars "base_link", some ⟨some ⟨0, 0, 0.051⟩, some ⟨0, 0, 0⟩⟩,
    none, none⟩,
  ⟨chars "base_bellow_joint", .fixed, chars "base_link", chars "base_bellow_link", some ⟨some ⟨-0.29, 0, 0.8⟩, some ⟨0, 0, 0⟩⟩,
    none, none⟩,
  ⟨chars "base_laser_joint", .fixed, chars "base_link", chars "base_laser_link", some ⟨some ⟨0.275, 0.0, 0.252⟩, some ⟨0, 0, 0⟩⟩,
    some ⟨0, 1, 0⟩, none⟩,
  ⟨chars "fl_caster_rotation_joint", .continuous, chars "base_link", chars "fl_caster_rotation_link", some ⟨some ⟨0.2246, 0.2246, 0.0282⟩, some ⟨0, 0, 0⟩⟩,
    some ⟨0, 0, 1⟩, some ⟨none, none, 6.5, 10⟩⟩,
  ⟨chars "fl_caster_l_wheel_joint", .continuous, chars "fl_caster_rotation_link", chars "fl_caster_l_wheel_link", some ⟨some ⟨0, 0.049, 0⟩, some ⟨0, 0, 0⟩⟩,
    some ⟨0, 1, 0⟩, some ⟨none, none, 7, 15⟩⟩,
  ⟨chars "fl_caster_r_wheel_joint", .continuous, chars "fl_caster_rotation_link", chars "fl_caster_r_wheel_link", some ⟨some ⟨0, -0.049, 0⟩, some ⟨0, 0, 0⟩⟩,
    some ⟨0, 1, 0⟩, some ⟨none, none, 7, 15⟩⟩,
  ⟨chars "fr_caster_rotation_joint", .continuous, chars "base_link", chars "fr_caster_rotation_link", some ⟨some ⟨0.2246, -0.2246, 0.0282⟩, some ⟨0, 0, 0⟩⟩,
    some ⟨0, 0, 1⟩, some ⟨none, none, 6.5, 10⟩⟩,
  ⟨chars "fr_caster_l_wheel_joint", .continuous, chars "fr_caster_rotation_link", chars "fr_caster_l_wheel_link", some ⟨some ⟨0, 0.049, 0⟩, some ⟨0, 0, 0⟩⟩,
    some ⟨0, 1, 0⟩, some ⟨none, none, 7, 15⟩⟩,
  ⟨chars "fr_caster_r_wheel_joint", .continuous, chars "fr_caster_rotation_link", chars "fr_caster_r_wheel_link", some ⟨some ⟨0, -0.049, 0⟩, some ⟨0, 0, 0⟩⟩,
    some ⟨0, 1, 0⟩, some ⟨none, none, 7, 15⟩⟩,
  ⟨chars "bl_caster_rotation_joint", .continuous, chars "base_link", chars "bl_caster_rotation_link", some ⟨some ⟨-0.2246, 0.2246, 0.0282⟩, some ⟨0, 0, 0⟩⟩,
    some ⟨0, 0, 1⟩, some ⟨none, none, 6.5, 10⟩⟩,
  ⟨chars "bl_caster_l_wheel_joint", .continuous, chars "bl_caster_rotation_link", chars "bl_caster_l_wheel_link", some ⟨some ⟨0, 0.049, 0⟩, some ⟨0, 0, 0⟩⟩,
    some ⟨0, 1, 0⟩, some ⟨none, none, 7, 15⟩⟩,
  ⟨chars "bl_caster_r_wheel_joint", .continuous, chars "bl_caster_rotation_link", chars "bl_caster_r_wheel_link", some ⟨some ⟨0, -0.049, 0⟩, some ⟨0, 0, 0⟩⟩,
    some ⟨0, 1, 0⟩, some ⟨none, none, 7, 15⟩⟩,
  ⟨chars "br_caster_rotation_joint", .continuous, chars "base_link", chars "br_caster_rotation_link", some ⟨some ⟨-0.2246, -0.2246, 0.0282⟩, some ⟨0, 0, 0⟩⟩,
    some ⟨0, 0, 1⟩, some ⟨none, none, 6.5, 10⟩⟩,
  ⟨chars "br_caster_l_wheel_joint", .continuous, chars "br_caster_rotation_link", chars "br_caster_l_wheel_link", some ⟨some ⟨0, 0.049, 0⟩, some ⟨0, 0, 0⟩⟩,
    some ⟨0, 1, 0⟩, some ⟨none, none, 7, 15⟩⟩,
  ⟨chars "br_caster_r_wheel_joint", .continuous, chars "br_caster_rotation_link", chars "br_caster_r_wheel_link", some ⟨some ⟨0, -0.049, 0⟩, some ⟨0, 0, 0⟩⟩,
    some ⟨0, 1, 0⟩, some ⟨none, none, 7, 15⟩⟩,
  ⟨chars "torso_lift_joint", .prismatic, chars "base_link", chars "torso_lift_link", some ⟨some ⟨-0.05, 0, 0.739675⟩, some ⟨0, 0, 0⟩⟩,
    some ⟨0, 0, 1⟩, some ⟨some 0.0, some 0.33, 10000, 0.013⟩⟩,
  ⟨chars "l_torso_lift_side_plate_joint", .fixed, chars "torso_lift_link", chars "l_torso_lift_side_plate_link", some ⟨some ⟨0.0535, 0.209285, 0.176625⟩, none⟩,
    none, none⟩,
  ⟨chars "r_torso_lift_side_plate_joint", .fixed, chars "torso_lift_link", chars "r_torso_lift_side_plate_link", some ⟨some ⟨0.0535, -0.209285, 0.176625⟩, none⟩,
    none, none⟩,
  ⟨chars "torso_lift_motor_screw_joint", .continuous, chars "base_link", chars "torso_lift_motor_screw_link", some ⟨some ⟨-0.15, 0.0, 0.7⟩, none⟩,
    some ⟨0, 0, 1⟩, none⟩,
  ⟨chars "imu_joint", .fixed, chars "torso_lift_link", chars "imu_link", some ⟨some ⟨-0.02977, -0.1497, 0.164⟩, some ⟨0, 3.14159265359, 0⟩⟩,
    some ⟨0, 1, 0⟩, none⟩,
  ⟨chars "head_pan_joint", .revolute, chars "torso_lift_link", chars "head_pan_link", some ⟨some ⟨-0.01707, 0.0, 0.38145⟩, some ⟨0.0, 0.0, 0.0⟩⟩,
    some ⟨0, 0, 1⟩, some ⟨some (-3.007), some 3.007, 2.645, 6⟩⟩,
  ⟨chars "head_tilt_joint", .revolute, chars "head_pan_link", chars "head_tilt_link", some ⟨some ⟨0.068, 0, 0⟩, some ⟨0, 0, 0⟩⟩,
    some ⟨0, 1, 0⟩, some ⟨some (-0.471238), some 1.39626, 18, 5⟩⟩,
  ⟨chars "head_plate_frame_joint", .fixed, chars "head_tilt_link", chars "head_plate_frame", some ⟨some ⟨0.0232, 0, 0.0645⟩, some ⟨0, 0, 0⟩⟩,
    none, none⟩,
  ⟨chars "sensor_mount_frame_joint", .fixed, chars "head_plate_frame", chars "sensor_mount_link", some ⟨some ⟨0.0, 0.0, 0.0⟩, some ⟨0, 0, 0⟩⟩,
    none, none⟩,
  ⟨chars "high_def_frame_joint", .fixed, chars "sensor_mount_link", chars "high_def_frame", some ⟨some ⟨0.046457, -0.110, 0.054600⟩, some ⟨0, 0, 0⟩⟩,
    none, none⟩,
  ⟨chars "high_def_optical_frame_joint", .fixed, chars "high_def_frame", chars "high_def_optical_frame", some ⟨some ⟨0.0, 0.0, 0.0⟩, some ⟨-1.57079632679, 0.0, -1.57079632679⟩⟩,
    none, none⟩,
  ⟨chars "double_stereo_frame_joint", .fixed, chars "sensor_mount_link", chars "double_stereo_link", some ⟨some ⟨0.0, 0.0, 0.0⟩, some ⟨0, 0, 0⟩⟩,
    none, none⟩,
  ⟨chars "wide_stereo_frame_joint", .fixed, chars "double_stereo_link", chars "wide_stereo_link", some ⟨some ⟨0.045, 0.03, 0.0501⟩, some ⟨0.0, 0.0, 0.0⟩⟩,
    none, none⟩,
  ⟨chars "wide_stereo_optical_frame_joint", .fixed, chars "wide_stereo_link", chars "wide_stereo_optical_frame", some ⟨some ⟨0, 0, 0⟩, some ⟨-1.57079632679, 0.0, -1.57079632679⟩⟩,
    none, none⟩,
  ⟨chars "wide_stereo_l_stereo_camera_frame_joint", .fixed, chars "wide_stereo_link", chars "wide_stereo_l_stereo_camera_frame", some ⟨some ⟨0, 0, 0⟩, some ⟨0, 0, 0⟩⟩,
    none, none⟩,
  ⟨chars "wide_stereo_l_stereo_camera_optical_frame_joint", .fixed, chars "wide_stereo_l_stereo_camera_frame", chars "wide_stereo_l_stereo_camera_optical_frame", some ⟨some ⟨0, 0, 0⟩, some ⟨-1.57079632679, 0.0, -1.57079632679⟩⟩,
    none, none⟩,
  ⟨chars "wide_stereo_r_stereo_camera_frame_joint", .fixed, chars "wide_stereo_l_stereo_camera_frame", chars "wide_stereo_r_stereo_camera_frame", some ⟨some ⟨0.0, -0.09, 0.0⟩, some ⟨0.0, 0.0, 0.0⟩⟩,
    none, none⟩,
  ⟨chars "wide_stereo_r_stereo_camera_optical_frame_joint", .fixed, chars "wide_stereo_r_stereo_camera_frame", chars "wide_stereo_r_stereo_camera_optical_frame", some ⟨some ⟨0, 0, 0⟩, some ⟨-1.57079632679, 0.0, -1.57079632679⟩⟩,
    none, none⟩,
  ⟨chars "narrow_stereo_frame_joint", .fixed, chars "double_stereo_link", chars "narrow_stereo_link", some ⟨some ⟨0.045, 0.06, 0.0501⟩, some ⟨0.0, 0.0, 0.0⟩⟩,
    none, none⟩,
  ⟨chars "narrow_stereo_optical_frame_joint", .fixed, chars "narrow_stereo_link", chars "narrow_stereo_optical_frame", some ⟨some ⟨0, 0, 0⟩, some ⟨-1.57079632679, 0.0, -1.57079632679⟩⟩,
    none, none⟩,
  ⟨chars "narrow_stereo_l_stereo_camera_frame_joint", .fixed, chars "narrow_stereo_link", chars "narrow_stereo_l_stereo_camera_frame", some ⟨some ⟨0, 0, 0⟩, some ⟨0, 0, 0⟩⟩,
    none, none⟩,
  ⟨chars "narrow_stereo_l_stereo_camera_optical_frame_joint", .fixed, chars "narrow_stereo_l_stereo_camera_frame", chars "narrow_stereo_l_stereo_camera_optical_frame", some ⟨some ⟨0, 0, 0⟩, some ⟨-1.57079632679, 0.0, -1.57079632679⟩⟩,
    none, none⟩,
  ⟨chars "narrow_stereo_r_stereo_camera_frame_joint", .fixed, chars "narrow_stereo_l_stereo_camera_frame", chars "narrow_stereo_r_stereo_camera_frame", some ⟨some ⟨0.0, -0.09, 0.0⟩, some ⟨0.0, 0.0, 0.0⟩⟩,
    none, none⟩,
  ⟨chars "narrow_stereo_r_stereo_camera_optical_frame_joint", .fixed, chars "narrow_stereo_r_stereo_camera_frame", chars "narrow_stereo_r_stereo_camera_optical_frame", some ⟨some ⟨0, 0, 0⟩, some ⟨-1.57079632679, 0.0, -1.57079632679⟩⟩,
    none, none⟩,
  ⟨chars "projector_wg6802418_frame_joint", .fixed, chars "head_plate_frame", chars "projector_wg6802418_frame", some ⟨some ⟨0, 0.110, 0.0546⟩, some ⟨0, 0, 0⟩⟩,
    none, none⟩,
  ⟨chars "projector_wg6802418_child_frame_joint", .fixed, chars "projector_wg6802418_frame", chars "projector_wg6802418_child_frame", some ⟨some ⟨0, 0, 0⟩, some ⟨0, -1.57079632679, 0⟩⟩,
    none, none⟩,
  ⟨chars "laser_tilt_mount_joint", .revolute, chars "torso_lift_link", chars "laser_tilt_mount_link", some ⟨some ⟨0.09893, 0, 0.227⟩, some ⟨0, 0, 0⟩⟩,
    some ⟨0, 1, 0⟩, some ⟨some (-0.7854), some 1.48353, 0.65, 10.0⟩⟩,
  ⟨chars "laser_tilt_joint", .fixed, chars "laser_tilt_mount_link", chars "laser_tilt_link", some ⟨some ⟨0, 0, 0.03⟩, some ⟨0, 0, 0⟩⟩,
    some ⟨0, 1, 0⟩, none⟩,
  ⟨chars "r_shoulder_pan_joint", .revolute, chars "torso_lift_link", chars "r_shoulder_pan_link", some ⟨some ⟨0.0, -0.188, 0.0⟩, some ⟨0, 0, 0⟩⟩,
    some ⟨0, 0, 1⟩, some ⟨some (-2.2853981634), some 0.714601836603, 30, 2.088⟩⟩,
  ⟨chars "r_shoulder_lift_joint", .revolute, chars "r_shoulder_pan_link", chars "r_shoulder_lift_link", some ⟨some ⟨0.1, 0, 0⟩, some ⟨0, 0, 0⟩⟩,
    some ⟨0, 1, 0⟩, some ⟨some (-0.5236), some 1.3963, 30, 2.082⟩⟩,
  ⟨chars "r_upper_arm_roll_joint", .revolute, chars "r_shoulder_lift_link", chars "r_upper_arm_roll_link", some ⟨some ⟨0, 0, 0⟩, some ⟨0, 0, 0⟩⟩,
    some ⟨1, 0, 0⟩, some ⟨some (-3.9), some 0.8, 30, 3.27⟩⟩,
  ⟨chars "r_upper_arm_joint", .fixed, chars "r_upper_arm_roll_link", chars "r_upper_arm_link", some ⟨some ⟨0, 0, 0⟩, some ⟨0, 0, 0⟩⟩,
    none, none⟩,
  ⟨chars "r_forearm_roll_joint", .continuous, chars "r_elbow_flex_link", chars "r_forearm_roll_link", some ⟨some ⟨0, 0, 0⟩, some ⟨0, 0, 0⟩⟩,
    some ⟨1, 0, 0⟩, some ⟨none, none, 30, 3.6⟩⟩,
  ⟨chars "r_elbow_flex_joint", .revolute, chars "r_upper_arm_link", chars "r_elbow_flex_link", some ⟨some ⟨0.4, 0, 0⟩, some ⟨0, 0, 0⟩⟩,
    some ⟨0, 1, 0⟩, some ⟨some (-2.3213), some 0.00, 30, 3.3⟩⟩,
  ⟨chars "r_forearm_joint", .fixed, chars "r_forearm_roll_link", chars "r_forearm_link", some ⟨some ⟨0, 0, 0⟩, some ⟨0, 0, 0⟩⟩,
    none, none⟩,
  ⟨chars "r_wrist_flex_joint", .revolute, chars "r_forearm_link", chars "r_wrist_flex_link", some ⟨some ⟨0.321, 0, 0⟩, some ⟨0, 0, 0⟩⟩,
    some ⟨0, 1, 0⟩, some ⟨some (-2.18), some 0.0, 10, 3.078⟩⟩,
  ⟨chars "r_wrist_roll_joint", .continuous, chars "r_wrist_flex_link", chars "r_wrist_roll_link", some ⟨some ⟨0, 0, 0⟩, some ⟨0, 0, 0⟩⟩,
    some ⟨1, 0, 0⟩, some ⟨none, none, 10, 3.6⟩⟩,
  ⟨chars "r_gripper_palm_joint", .fixed, chars "r_wrist_roll_link", chars "r_gripper_palm_link", some ⟨some ⟨0, 0, 0⟩, some ⟨0, 0, 0⟩⟩,
    none, none⟩,
  ⟨chars "r_gripper_led_joint", .fixed, chars "r_gripper_palm_link", chars "r_gripper_led_frame", some ⟨some ⟨0.0513, 0.0, 0.0244⟩, none⟩,
    none, none⟩,
  ⟨chars "r_gripper_motor_accelerometer_joint", .fixed, chars "r_gripper_palm_link", chars "r_gripper_motor_accelerometer_link", some ⟨some ⟨0, 0, 0⟩, some ⟨0, 0, 0⟩⟩,
    none, none⟩,
  ⟨chars "r_gripper_tool_joint", .fixed, chars "r_gripper_palm_link", chars "r_gripper_tool_frame", some ⟨some ⟨0.18, 0, 0⟩, some ⟨0, 0, 0⟩⟩,
    none, none⟩,
  ⟨chars "r_gripper_motor_slider_joint", .prismatic, chars "r_gripper_palm_link", chars "r_gripper_motor_slider_link", some ⟨some ⟨0.16828, 0, 0⟩, some ⟨0, 0, 0⟩⟩,
    some ⟨1, 0, 0⟩, some ⟨some (-0.1), some 0.1, 1000.0, 0.2⟩⟩,
  ⟨chars "r_gripper_motor_screw_joint", .continuous, chars "r_gripper_motor_slider_link", chars "r_gripper_motor_screw_link", some ⟨some ⟨0.0, 0, 0⟩, some ⟨0, 0, 0⟩⟩,
    some ⟨0, 1, 0⟩, none⟩,
  ⟨chars "r_gripper_l_finger_joint", .revolute, chars "r_gripper_palm_link", chars "r_gripper_l_finger_link", some ⟨some ⟨0.07691, 0.01, 0⟩, some ⟨0, 0, 0⟩⟩,
    some ⟨0, 0, 1⟩, some ⟨some 0.0, some 0.548, 1000.0, 0.5⟩⟩,
  ⟨chars "r_gripper_r_finger_joint", .revolute, chars "r_gripper_palm_link", chars "r_gripper_r_finger_link", some ⟨some ⟨0.07691, -0.01, 0⟩, some ⟨0, 0, 0⟩⟩,
    some ⟨0, 0, -1⟩, some ⟨some 0.0, some 0.548, 1000.0, 0.5⟩⟩,
  ⟨chars "r_gripper_l_finger_tip_joint", .revolute, chars "r_gripper_l_finger_link", chars "r_gripper_l_finger_tip_link", some ⟨some ⟨0.09137, 0.00495, 0⟩, some ⟨0, 0, 0⟩⟩,
    some ⟨0, 0, -1⟩, some ⟨some 0.0, some 0.548, 1000.0, 0.5⟩⟩,
  ⟨chars "r_gripper_r_finger_tip_joint", .revolute, chars "r_gripper_r_finger_link", chars "r_gripper_r_finger_tip_link", some ⟨some ⟨0.09137, -0.00495, 0⟩, some ⟨0, 0, 0⟩⟩,
    some ⟨0, 0, 1⟩, some ⟨some 0.0, some 0.548, 1000.0, 0.5⟩⟩,
  ⟨chars "r_gripper_joint", .prismatic, chars "r_gripper_r_finger_tip_link", chars "r_gripper_l_finger_tip_frame", none,
    some ⟨0, 1, 0⟩, some ⟨some 0.0, some 0.09, 1000.0, 0.2⟩⟩,
  ⟨chars "l_shoulder_pan_joint", .revolute, chars "torso_lift_link", chars "l_shoulder_pan_link", some ⟨some ⟨0.0, 0.188, 0.0⟩, some ⟨0, 0, 0⟩⟩,
    some ⟨0, 0, 1⟩, some ⟨some (-0.714601836603), some 2.2853981634, 30, 2.088⟩⟩,
  ⟨chars "l_shoulder_lift_joint", .revolute, chars "l_shoulder_pan_link", chars "l_shoulder_lift_link", some ⟨some ⟨0.1, 0, 0⟩, some ⟨0, 0, 0⟩⟩,
    some ⟨0, 1, 0⟩, some ⟨some (-0.5236), some 1.3963, 30, 2.082⟩⟩,
  ⟨chars "l_upper_arm_roll_joint", .revolute, chars "l_shoulder_lift_link", chars "l_upper_arm_roll_link", some ⟨some ⟨0, 0, 0⟩, some ⟨0, 0, 0⟩⟩,
    some ⟨1, 0, 0⟩, some ⟨some (-0.8), some 3.9, 30, 3.27⟩⟩,
  ⟨chars "l_upper_arm_joint", .fixed, chars "l_upper_arm_roll_link", chars "l_upper_arm_link", some ⟨some ⟨0, 0, 0⟩, some ⟨0, 0, 0⟩⟩,
    none, none⟩,
  ⟨chars "l_forearm_roll_joint", .continuous, chars "l_elbow_flex_link", chars "l_forearm_roll_link", some ⟨some ⟨0, 0, 0⟩, some ⟨0, 0, 0⟩⟩,
    some ⟨1, 0, 0⟩, some ⟨none, none, 30, 3.6⟩⟩,
  ⟨chars "l_elbow_flex_joint", .revolute, chars "l_upper_arm_link", chars "l_elbow_flex_link", some ⟨some ⟨0.4, 0, 0⟩, some ⟨0, 0, 0⟩⟩,
    some ⟨0, 1, 0⟩, some ⟨some (-2.3213), some 0.00, 30, 3.3⟩⟩,
  ⟨chars "l_forearm_joint", .fixed, chars "l_forearm_roll_link", chars "l_forearm_link", some ⟨some ⟨0, 0, 0⟩, some ⟨0, 0, 0⟩⟩,
    none, none⟩,
  ⟨chars "l_wrist_flex_joint", .revolute, chars "l_forearm_link", chars "l_wrist_flex_link", some ⟨some ⟨0.321, 0, 0⟩, some ⟨0, 0, 0⟩⟩,
    some ⟨0, 1, 0⟩, some ⟨some (-2.18), some 0.0, 10, 3.078⟩⟩,
  ⟨chars "l_wrist_roll_joint", .continuous, chars "l_wrist_flex_link", chars "l_wrist_roll_link", some ⟨some ⟨0, 0, 0⟩, some ⟨0, 0, 0⟩⟩,
    some ⟨1, 0, 0⟩, some ⟨none, none, 10, 3.6⟩⟩,
  ⟨chars "l_gripper_palm_joint", .fixed, chars "l_wrist_roll_link", chars "l_gripper_palm_link", some ⟨some ⟨0, 0, 0⟩, some ⟨0, 0, 0⟩⟩,
    none, none⟩,
  ⟨chars "l_gripper_led_joint", .fixed, chars "l_gripper_palm_link", chars "l_gripper_led_frame", some ⟨some ⟨0.0513, 0.0, 0.0244⟩, none⟩,
    none, none⟩,
  ⟨chars "l_gripper_motor_accelerometer_joint", .fixed, chars "l_gripper_palm_link", chars "l_gripper_motor_accelerometer_link", some ⟨some ⟨0, 0, 0⟩, some ⟨0, 0, 0⟩⟩,
    none, none⟩,
  ⟨chars "l_gripper_tool_joint", .fixed, chars "l_gripper_palm_link", chars "l_gripper_tool_frame", some ⟨some ⟨0.18, 0, 0⟩, some ⟨0, 0, 0⟩⟩,
    none, none⟩,
  ⟨chars "l_gripper_motor_slider_joint", .prismatic, chars "l_gripper_palm_link", chars "l_gripper_motor_slider_link", some ⟨some ⟨0.16828, 0, 0⟩, some ⟨0, 0, 0⟩⟩,
    some ⟨1, 0, 0⟩, some ⟨some (-0.1), some 0.1, 1000.0, 0.2⟩⟩,
  ⟨chars "l_gripper_motor_screw_joint", .continuous, chars "l_gripper_motor_slider_link", chars "l_gripper_motor_screw_link", some ⟨some ⟨0.0, 0, 0⟩, some ⟨0, 0, 0⟩⟩,
    some ⟨0, 1, 0⟩, none⟩,
  ⟨chars "l_gripper_l_finger_joint", .revolute, chars "l_gripper_palm_link", chars "l_gripper_l_finger_link", some ⟨some ⟨0.07691, 0.01, 0⟩, some ⟨0, 0, 0⟩⟩,
    some ⟨0, 0, 1⟩, some ⟨some 0.0, some 0.548, 1000.0, 0.5⟩⟩,
  ⟨chars "l_gripper_r_finger_joint", .revolute, chars "l_gripper_palm_link", chars "l_gripper_r_finger_link", some ⟨some ⟨0.07691, -0.01, 0⟩, some ⟨0, 0, 0⟩⟩,
    some ⟨0, 0, -1⟩, some ⟨some 0.0, some 0.548, 1000.0, 0.5⟩⟩,
  ⟨chars "l_gripper_l_finger_tip_joint", .revolute, chars "l_gripper_l_finger_link", chars "l_gripper_l_finger_tip_link", some ⟨some ⟨0.09137, 0.00495, 0⟩, some ⟨0, 0, 0⟩⟩,
    some ⟨0, 0, -1⟩, some ⟨some 0.0, some 0.548, 1000.0, 0.5⟩⟩,
  ⟨chars "l_gripper_r_finger_tip_joint", .revolute, chars "l_gripper_r_finger_link", chars "l_gripper_r_finger_tip_link", some ⟨some ⟨0.09137, -0.00495, 0⟩, some ⟨0, 0, 0⟩⟩,
    some ⟨0, 0, 1⟩, some ⟨some 0.0, some 0.548, 1000.0, 0.5⟩⟩,
  ⟨chars "l_gripper_joint", .prismatic, chars "l_gripper_r_finger_tip_link", chars "l_gripper_l_finger_tip_frame", none,
    some ⟨0, 1, 0⟩, some ⟨some 0.0, some 0.09, 1000.0, 0.2⟩⟩,
  ⟨chars "l_forearm_cam_frame_joint", .fixed, chars "l_forearm_roll_link", chars "l_forearm_cam_frame", some ⟨some ⟨0.135, 0, 0.044⟩, some ⟨-1.57079632679, -0.562868683768, 0⟩⟩,
    none, none⟩,
  ⟨chars "l_forearm_cam_optical_frame_joint", .fixed, chars "l_forearm_cam_frame", chars "l_forearm_cam_optical_frame", some ⟨some ⟨0, 0, 0⟩, some ⟨-1.57079632679, 0.0, -1.57079632679⟩⟩,
    none, none⟩,
  ⟨chars "r_forearm_cam_frame_joint", .fixed, chars "r_forearm_roll_link", chars "r_forearm_cam_frame", some ⟨some ⟨0.135, 0, 0.044⟩, some ⟨1.57079632679, -0.562868683768, 0⟩⟩,
    none, none⟩,
  ⟨chars "r_forearm_cam_optical_frame_joint", .fixed, chars "r_forearm_cam_frame", chars "r_forearm_cam_optical_frame", some ⟨some ⟨0, 0, 0⟩, some ⟨-1.57079632679, 0.0, -1.57079632679⟩⟩,
    none, none⟩]

/-- the link without parent -/
def root : List Char := chars "base_footprint"

/-- the links, parents before children -/
def order : List (List Char) := [
  chars "base_footprint",
  chars "base_link",
  chars "base_bellow_link",
  chars "base_laser_link",
  chars "fl_caster_rotation_link",
  chars "fr_caster_rotation_link",
  chars "bl_caster_rotation_link",
  chars "br_caster_rotation_link",
  chars "torso_lift_link",
  chars "torso_lift_motor_screw_link",
  chars "fl_caster_l_wheel_link",
  chars "fl_caster_r_wheel_link",
  chars "fr_caster_l_wheel_link",
  chars "fr_caster_r_wheel_link",
  chars "bl_caster_l_wheel_link",
  chars "bl_caster_r_wheel_link",
  chars "br_caster_l_wheel_link",
  chars "br_caster_r_wheel_link",
  chars "l_torso_lift_side_plate_link",
  chars "r_torso_lift_side_plate_link",
  chars "imu_link",
  chars "head_pan_link",
  chars "laser_tilt_mount_link",
  chars "r_shoulder_pan_link",
  chars "l_shoulder_pan_link",
  chars "head_tilt_link",
  chars "laser_tilt_link",
  chars "r_shoulder_lift_link",
  chars "l_shoulder_lift_link",
  chars "head_plate_frame",
  chars "r_upper_arm_roll_link",
  chars "l_upper_arm_roll_link",
  chars "sensor_mount_link",
  chars "projector_wg6802418_frame",
  chars "r_upper_arm_link",
  chars "l_upper_arm_link",
  chars "high_def_frame",
  chars "double_stereo_link",
  chars "projector_wg6802418_child_frame",
  chars "r_elbow_flex_link",
  chars "l_elbow_flex_link",
  chars "high_def_optical_frame",
  chars "wide_stereo_link",
  chars "narrow_stereo_link",
  chars "r_forearm_roll_link",
  chars "l_forearm_roll_link",
  chars "wide_stereo_optical_frame",
  chars "wide_stereo_l_stereo_camera_frame",
  chars "narrow_stereo_optical_frame",
  chars "narrow_stereo_l_stereo_camera_frame",
  chars "r_forearm_link",
  chars "r_forearm_cam_frame",
  chars "l_forearm_link",
  chars "l_forearm_cam_frame",
  chars "wide_stereo_l_stereo_camera_optical_frame",
  chars "wide_stereo_r_stereo_camera_frame",
  chars "narrow_stereo_l_stereo_camera_optical_frame",
  chars "narrow_stereo_r_stereo_camera_frame",
  chars "r_wrist_flex_link",
  chars "r_forearm_cam_optical_frame",
  chars "l_wrist_flex_link",
  chars "l_forearm_cam_optical_frame",
  chars "wide_stereo_r_stereo_camera_optical_frame",
  chars "narrow_stereo_r_stereo_camera_optical_frame",
  chars "r_wrist_roll_link",
  chars "l_wrist_roll_link",
  chars "r_gripper_palm_link",
  chars "l_gripper_palm_link",
  chars "r_gripper_led_frame",
  chars "r_gripper_motor_accelerometer_link",
  chars "r_gripper_tool_frame",
  chars "r_gripper_motor_slider_link",
  chars "r_gripper_l_finger_link",
  chars "r_gripper_r_finger_link",
  chars "l_gripper_led_frame",
  chars "l_gripper_motor_accelerometer_link",
  chars "l_gripper_tool_frame",
  chars "l_gripper_motor_slider_link",
  chars "l_gripper_l_finger_link",
  chars "l_gripper_r_finger_link",
  chars "r_gripper_motor_screw_link",
  chars "r_gripper_l_finger_tip_link",
  chars "r_gripper_r_finger_tip_link",
  chars "l_gripper_motor_screw_link",
  chars "l_gripper_l_finger_tip_link",
  chars "l_gripper_r_finger_tip_link",
  chars "r_gripper_l_finger_tip_frame",
  chars "l_gripper_l_finger_tip_frame"]

end Tinyfk.Pr2
