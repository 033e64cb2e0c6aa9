import Verif.Spec.RobotTable

/-!
# `data/kuka.urdf`

The file, line by line, and the robot as a table. The table was made with another XML parser; that it is what the file
says is a theorem (`C96_files`).
-/

set_option maxRecDepth 20000

namespace Tinyfk.Kuka

/-- data/kuka.urdf:1-150 -/
def text1 : List (List Char) := [
  chars "<?xml version=\"1.0\" ?>",
  chars "<!-- ======================================================================= -->",
  chars "<!-- | This document was autogenerated by xacro from lbr_iiwa.urdf.xacro   | -->",
  chars "<!-- | Original xacro: https://github.com/rtkg/lbr_iiwa/archive/master.zip | -->",
  chars "<!-- | EDITING THIS FILE BY HAND IS NOT RECOMMENDED                        | -->",
  chars "<!-- | Changes (kohlhoff):                                                 | -->",
  chars "<!-- |   * Removed gazebo tags.                                            | -->",
  chars "<!-- |   * Removed unused materials.                                       | -->",
  chars "<!-- |   * Made mesh paths relative.                                       | -->",
  chars "<!-- |   * Removed material fields from collision segments.                | -->",
  chars "<!-- |   * Removed the self_collision_checking segment.                    | -->",
  chars "<!-- |   * Removed transmission segments, since they didn't match the      | -->",
  chars "<!-- |     convention, will have to added back later.                      | -->",
  chars "<!-- ======================================================================= -->",
  chars "<!--LICENSE:                                                                 -->",
  chars "<!--Copyright (c) 2015, Robert Krug & Todor Stoyanov, AASS Research Center,  -->",
  chars "<!--Orebro University, Sweden                                                -->",
  chars "<!--All rights reserved.                                                     -->",
  chars "<!--                                                                         -->",
  chars "<!--Redistribution and use in source and binary forms, with or without       -->",
  chars "<!--modification, are permitted provided that the following conditions are   -->",
  chars "<!--met:                                                                     -->",
  chars "<!--                                                                         -->",
  chars "<!--1. Redistributions of source code must retain the above copyright notice,-->",
  chars "<!--   this list of conditions and the following disclaimer.                 -->",
  chars "<!--                                                                         -->",
  chars "<!--2. Redistributions in binary form must reproduce the above copyright     -->",
  chars "<!--   notice, this list of conditions and the following disclaimer in the   -->",
  chars "<!--   documentation and/or other materials provided with the distribution.  -->",
  chars "<!--                                                                         -->",
  chars "<!--THIS SOFTWARE IS PROVIDED BY THE COPYRIGHT HOLDERS AND CONTRIBUTORS \"AS  -->",
  chars "<!--IS\" AND ANY EXPRESS OR IMPLIED WARRANTIES, INCLUDING, BUT NOT LIMITED TO,-->",
  chars "<!--THE IMPLIED WARRANTIES OF MERCHANTABILITY AND FITNESS FOR A PARTICULAR   -->",
  chars "<!--PURPOSE ARE DISCLAIMED. IN NO EVENT SHALL THE COPYRIGHT HOLDER OR        -->",
  chars "<!--CONTRIBUTORS BE LIABLE FOR ANY DIRECT, INDIRECT, INCIDENTAL, SPECIAL,    -->",
  chars "<!--EXEMPLARY, OR CONSEQUENTIAL DAMAGES (INCLUDING, BUT NOT LIMITED TO,      -->",
  chars "<!--PROCUREMENT OF SUBSTITUTE GOODS OR SERVICES; LOSS OF USE, DATA, OR       -->",
  chars "<!--PROFITS; OR BUSINESS INTERRUPTION) HOWEVER CAUSED AND ON ANY THEORY OF   -->",
  chars "<!--LIABILITY, WHETHER IN CONTRACT, STRICT LIABILITY, OR TORT (INCLUDING     -->",
  chars "<!--NEGLIGENCE OR OTHERWISE) ARISING IN ANY WAY OUT OF THE USE OF THIS       -->",
  chars "<!--SOFTWARE, EVEN IF ADVISED OF THE POSSIBILITY OF SUCH DAMAGE.             -->",
  chars "<robot name=\"lbr_iiwa\" xmlns:xacro=\"http://www.ros.org/wiki/xacro\">",
  chars "  <!-- Import Rviz colors -->",
  chars "  <material name=\"Grey\">",
  chars "    <color rgba=\"0.2 0.2 0.2 1.0\"/>",
  chars "  </material>",
  chars "  <material name=\"Orange\">",
  chars "    <color rgba=\"1.0 0.423529411765 0.0392156862745 1.0\"/>",
  chars "  </material>",
  chars "  <material name=\"Blue\">",
  chars "  <color rgba=\"0.5 0.7 1.0 1.0\"/>      ",
  chars "</material>",
  chars "",
  chars "  <!--Import the lbr iiwa macro -->",
  chars "  <!--Import Transmissions -->",
  chars "  <!--Include Utilities -->",
  chars "  <!--The following macros are adapted from the LWR 4 definitions of the RCPRG - https://github.com/RCPRG-ros-pkg/lwr_robot -->",
  chars "  <!--Little helper macros to define the inertia matrix needed for links.-->",
  chars "  <!--Cuboid-->",
  chars "  <!--Cylinder: length is along the y-axis! -->",
  chars "  <!--lbr-->",
  chars "  <link name=\"lbr_iiwa_link_0\">",
  chars "    <inertial>",
  chars "      <origin rpy=\"0 0 0\" xyz=\"-0.1 0 0.07\"/>",
  chars "      <!--Increase mass from 5 Kg original to provide a stable base to carry the",
  chars "          arm.-->",
  chars "      <mass value=\"0.0\"/>",
  chars "      <inertia ixx=\"0.05\" ixy=\"0\" ixz=\"0\" iyy=\"0.06\" iyz=\"0\" izz=\"0.03\"/>",
  chars "    </inertial>",
  chars "  </link>",
  chars "  <!-- joint between link_0 and link_1 -->",
  chars "  <joint name=\"lbr_iiwa_joint_1\" type=\"revolute\">",
  chars "    <parent link=\"lbr_iiwa_link_0\"/>",
  chars "    <child link=\"lbr_iiwa_link_1\"/>",
  chars "    <origin rpy=\"0 0 0\" xyz=\"0 0 0.1575\"/>",
  chars "    <axis xyz=\"0 0 1\"/>",
  chars "    <limit effort=\"300\" lower=\"-2.96705972839\" upper=\"2.96705972839\" velocity=\"10\"/>",
  chars "    <dynamics damping=\"0.5\"/>",
  chars "  </joint>",
  chars "  <link name=\"lbr_iiwa_link_1\">",
  chars "    <inertial>",
  chars "      <origin rpy=\"0 0 0\" xyz=\"0 -0.03 0.12\"/>",
  chars "      <mass value=\"4\"/>",
  chars "      <inertia ixx=\"0.1\" ixy=\"0\" ixz=\"0\" iyy=\"0.09\" iyz=\"0\" izz=\"0.02\"/>",
  chars "    </inertial>",
  chars "  </link>",
  chars "  <!-- joint between link_1 and link_2 -->",
  chars "  <joint name=\"lbr_iiwa_joint_2\" type=\"revolute\">",
  chars "    <parent link=\"lbr_iiwa_link_1\"/>",
  chars "    <child link=\"lbr_iiwa_link_2\"/>",
  chars "    <origin rpy=\"1.57079632679   0 3.14159265359\" xyz=\"0 0 0.2025\"/>",
  chars "    <axis xyz=\"0 0 1\"/>",
  chars "    <limit effort=\"300\" lower=\"-2.09439510239\" upper=\"2.09439510239\" velocity=\"10\"/>",
  chars "    <dynamics damping=\"0.5\"/>",
  chars "  </joint>",
  chars "  <link name=\"lbr_iiwa_link_2\">",
  chars "    <inertial>",
  chars "      <origin rpy=\"0 0 0\" xyz=\"0.0003 0.059 0.042\"/>",
  chars "      <mass value=\"4\"/>",
  chars "      <inertia ixx=\"0.05\" ixy=\"0\" ixz=\"0\" iyy=\"0.018\" iyz=\"0\" izz=\"0.044\"/>",
  chars "    </inertial>",
  chars "  </link>",
  chars "  <!-- joint between link_2 and link_3 -->",
  chars "  <joint name=\"lbr_iiwa_joint_3\" type=\"revolute\">",
  chars "    <parent link=\"lbr_iiwa_link_2\"/>",
  chars "    <child link=\"lbr_iiwa_link_3\"/>",
  chars "    <origin rpy=\"1.57079632679 0 3.14159265359\" xyz=\"0 0.2045 0\"/>",
  chars "    <axis xyz=\"0 0 1\"/>",
  chars "    <limit effort=\"300\" lower=\"-2.96705972839\" upper=\"2.96705972839\" velocity=\"10\"/>",
  chars "    <dynamics damping=\"0.5\"/>",
  chars "  </joint>",
  chars "  <link name=\"lbr_iiwa_link_3\">",
  chars "    <inertial>",
  chars "      <origin rpy=\"0 0 0\" xyz=\"0 0.03 0.13\"/>",
  chars "      <mass value=\"3\"/>",
  chars "      <inertia ixx=\"0.08\" ixy=\"0\" ixz=\"0\" iyy=\"0.075\" iyz=\"0\" izz=\"0.01\"/>",
  chars "    </inertial>",
  chars "  </link>",
  chars "  <!-- joint between link_3 and link_4 -->",
  chars "  <joint name=\"lbr_iiwa_joint_4\" type=\"revolute\">",
  chars "    <parent link=\"lbr_iiwa_link_3\"/>",
  chars "    <child link=\"lbr_iiwa_link_4\"/>",
  chars "    <origin rpy=\"1.57079632679 0 0\" xyz=\"0 0 0.2155\"/>",
  chars "    <axis xyz=\"0 0 1\"/>",
  chars "    <limit effort=\"300\" lower=\"-2.09439510239\" upper=\"2.09439510239\" velocity=\"10\"/>",
  chars "    <dynamics damping=\"0.5\"/>",
  chars "  </joint>",
  chars "  <link name=\"lbr_iiwa_link_4\">",
  chars "    <inertial>",
  chars "      <origin rpy=\"0 0 0\" xyz=\"0 0.067 0.034\"/>",
  chars "      <mass value=\"2.7\"/>",
  chars "      <inertia ixx=\"0.03\" ixy=\"0\" ixz=\"0\" iyy=\"0.01\" iyz=\"0\" izz=\"0.029\"/>",
  chars "    </inertial>",
  chars "  </link>",
  chars "  <!-- joint between link_4 and link_5 -->",
  chars "  <joint name=\"lbr_iiwa_joint_5\" type=\"revolute\">",
  chars "    <parent link=\"lbr_iiwa_link_4\"/>",
  chars "    <child link=\"lbr_iiwa_link_5\"/>",
  chars "    <origin rpy=\"-1.57079632679 3.14159265359 0\" xyz=\"0 0.1845 0\"/>",
  chars "    <axis xyz=\"0 0 1\"/>",
  chars "    <limit effort=\"300\" lower=\"-2.96705972839\" upper=\"2.96705972839\" velocity=\"10\"/>",
  chars "    <dynamics damping=\"0.5\"/>",
  chars "  </joint>",
  chars "  <link name=\"lbr_iiwa_link_5\">",
  chars "    <inertial>",
  chars "      <origin rpy=\"0 0 0\" xyz=\"0.0001 0.021 0.076\"/>",
  chars "      <mass value=\"1.7\"/>",
  chars "      <inertia ixx=\"0.02\" ixy=\"0\" ixz=\"0\" iyy=\"0.018\" iyz=\"0\" izz=\"0.005\"/>",
  chars "    </inertial>",
  chars "  </link>"]

/-- data/kuka.urdf:151-185 -/
def text2 : List (List Char) := [
  chars "  <!-- joint between link_5 and link_6 -->",
  chars "  <joint name=\"lbr_iiwa_joint_6\" type=\"revolute\">",
  chars "    <parent link=\"lbr_iiwa_link_5\"/>",
  chars "    <child link=\"lbr_iiwa_link_6\"/>",
  chars "    <origin rpy=\"1.57079632679 0 0\" xyz=\"0 0 0.2155\"/>",
  chars "    <axis xyz=\"0 0 1\"/>",
  chars "    <limit effort=\"300\" lower=\"-2.09439510239\" upper=\"2.09439510239\" velocity=\"10\"/>",
  chars "    <dynamics damping=\"0.5\"/>",
  chars "  </joint>",
  chars "  <link name=\"lbr_iiwa_link_6\">",
  chars "    <inertial>",
  chars "      <origin rpy=\"0 0 0\" xyz=\"0 0.0006 0.0004\"/>",
  chars "      <mass value=\"1.8\"/>",
  chars "      <inertia ixx=\"0.005\" ixy=\"0\" ixz=\"0\" iyy=\"0.0036\" iyz=\"0\" izz=\"0.0047\"/>",
  chars "    </inertial>",
  chars "  </link>",
  chars "  <!-- joint between link_6 and link_7 -->",
  chars "  <joint name=\"lbr_iiwa_joint_7\" type=\"revolute\">",
  chars "    <parent link=\"lbr_iiwa_link_6\"/>",
  chars "    <child link=\"lbr_iiwa_link_7\"/>",
  chars "    <origin rpy=\"-1.57079632679 3.14159265359 0\" xyz=\"0 0.081 0\"/>",
  chars "    <axis xyz=\"0 0 1\"/>",
  chars "    <limit effort=\"300\" lower=\"-3.05432619099\" upper=\"3.05432619099\" velocity=\"10\"/>",
  chars "    <dynamics damping=\"0.5\"/>",
  chars "  </joint>",
  chars "  <link name=\"lbr_iiwa_link_7\">",
  chars "    <inertial>",
  chars "      <origin rpy=\"0 0 0\" xyz=\"0 0 0.02\"/>",
  chars "      <mass value=\"0.3\"/>",
  chars "      <inertia ixx=\"0.001\" ixy=\"0\" ixz=\"0\" iyy=\"0.001\" iyz=\"0\" izz=\"0.001\"/>",
  chars "    </inertial>",
  chars "  </link>",
  chars "  ",
  chars "</robot>",
  chars ""]

/-- data/kuka.urdf -/
def text : List Char := lines (text1 ++ text2)

/-- the links of `data/kuka.urdf`: name and inertial data (origin, mass, ixx, ixy, ixz, iyy, iyz, izz) -/
def links : List LinkRow := [
  ⟨chars "lbr_iiwa_link_0", some ⟨some ⟨some ⟨-0.1, 0, 0.07⟩, some ⟨0, 0, 0⟩⟩, 0.0, 0.05, 0, 0, 0.06, 0, 0.03⟩⟩,
  ⟨chars "lbr_iiwa_link_1", some ⟨some ⟨some ⟨0, -0.03, 0.12⟩, some ⟨0, 0, 0⟩⟩, 4, 0.1, 0, 0, 0.09, 0, 0.02⟩⟩,
  ⟨chars "lbr_iiwa_link_2", some ⟨some ⟨some ⟨0.0003, 0.059, 0.042⟩, some ⟨0, 0, 0⟩⟩, 4, 0.05, 0, 0, 0.018, 0, 0.044⟩⟩,
  ⟨chars "lbr_iiwa_link_3", some ⟨some ⟨some ⟨0, 0.03, 0.13⟩, some ⟨0, 0, 0⟩⟩, 3, 0.08, 0, 0, 0.075, 0, 0.01⟩⟩,
  ⟨chars "lbr_iiwa_link_4", some ⟨some ⟨some ⟨0, 0.067, 0.034⟩, some ⟨0, 0, 0⟩⟩, 2.7, 0.03, 0, 0, 0.01, 0, 0.029⟩⟩,
  ⟨chars "lbr_iiwa_link_5", some ⟨some ⟨some ⟨0.0001, 0.021, 0.076⟩, some ⟨0, 0, 0⟩⟩, 1.7, 0.02, 0, 0, 0.018, 0, 0.005⟩⟩,
  ⟨chars "lbr_iiwa_link_6", some ⟨some ⟨some ⟨0, 0.0006, 0.0004⟩, some ⟨0, 0, 0⟩⟩, 1.8, 0.005, 0, 0, 0.0036, 0, 0.0047⟩⟩,
  ⟨chars "lbr_iiwa_link_7", some ⟨some ⟨some ⟨0, 0, 0.02⟩, some ⟨0, 0, 0⟩⟩, 0.3, 0.001, 0, 0, 0.001, 0, 0.001⟩⟩]

/-- the joints of `data/kuka.urdf`: name, type, parent, child, origin, axis, limits (lower, upper, effort, velocity) -/
def joints : List JointRow := [
  ⟨chars "lbr_iiwa_joint_1", .revolute, chars "lbr_iiwa_link_0", chars "lbr_iiwa_link_1", some ⟨some ⟨0, 0, 0.1575⟩, some ⟨0, 0, 0⟩⟩,
    some ⟨0, 0, 1⟩, some ⟨some (-2.96705972839), some 2.96705972839, 300, 10⟩⟩,
  ⟨chars "lbr_iiwa_joint_2", .revolute, chars "lbr_iiwa_link_1", chars "lbr_iiwa_link_2", some ⟨some ⟨0, 0, 0.2025⟩, some ⟨1.57079632679, 0, 3.14159265359⟩⟩,
    some ⟨0, 0, 1⟩, some ⟨some (-2.09439510239), some 2.09439510239, 300, 10⟩⟩,
  ⟨chars "lbr_iiwa_joint_3", .revolute, chars "lbr_iiwa_link_2", chars "lbr_iiwa_link_3", some ⟨some ⟨0, 0.2045, 0⟩, some ⟨1.57079632679, 0, 3.14159265359⟩⟩,
    some ⟨0, 0, 1⟩, some ⟨some (-2.96705972839), some 2.96705972839, 300, 10⟩⟩,
  ⟨chars "lbr_iiwa_joint_4", .revolute, chars "lbr_iiwa_link_3", chars "lbr_iiwa_link_4", some ⟨some ⟨0, 0, 0.2155⟩, some ⟨1.57079632679, 0, 0⟩⟩,
    some ⟨0, 0, 1⟩, some ⟨some (-2.09439510239), some 2.09439510239, 300, 10⟩⟩,
  ⟨chars "lbr_iiwa_joint_5", .revolute, chars "lbr_iiwa_link_4", chars "lbr_iiwa_link_5", some ⟨some ⟨0, 0.1845, 0⟩, some ⟨-1.57079632679, 3.14159265359, 0⟩⟩,
    some ⟨0, 0, 1⟩, some ⟨some (-2.96705972839), some 2.96705972839, 300, 10⟩⟩,
  ⟨chars "lbr_iiwa_joint_6", .revolute, chars "lbr_iiwa_link_5", chars "lbr_iiwa_link_6", some ⟨some ⟨0, 0, 0.2155⟩, some ⟨1.57079632679, 0, 0⟩⟩,
    some ⟨0, 0, 1⟩, some ⟨some (-2.09439510239), some 2.09439510239, 300, 10⟩⟩,
  ⟨chars "lbr_iiwa_joint_7", .revolute, chars "lbr_iiwa_link_6", chars "lbr_iiwa_link_7", some ⟨some ⟨0, 0.081, 0⟩, some ⟨-1.57079632679, 3.14159265359, 0⟩⟩,
    some ⟨0, 0, 1⟩, some ⟨some (-3.05432619099), some 3.05432619099, 300, 10⟩⟩]

/-- the link without parent -/
def root : List Char := chars "lbr_iiwa_link_0"

/-- the links, parents before children -/
def order : List (List Char) := [
  chars "lbr_iiwa_link_0",
  chars "lbr_iiwa_link_1",
  chars "lbr_iiwa_link_2",
  chars "lbr_iiwa_link_3",
  chars "lbr_iiwa_link_4",
  chars "lbr_iiwa_link_5",
  chars "lbr_iiwa_link_6",
  chars "lbr_iiwa_link_7"]

end Tinyfk.Kuka
