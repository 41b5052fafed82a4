{
 "claims": [
  {
   "property": "C01",
   "status": "proved",
   "theorems": [
    "Roki.C01_offsets_tile"
   ],
   "note": "All clauses, every link array."
  },
  {
   "property": "C02",
   "status": "proved",
   "theorems": [
    "Roki.C02_vel_roundtrip",
    "Roki.C02_rate_roundtrip",
    "Roki.C02_dis_roundtrip",
    "Roki.C02_get_slices"
   ],
   "note": "Round trip for velocity, rate and displacement; reading slices for displacement, velocity, acceleration, torque. The library has no whole-chain torque setter."
  },
  {
   "property": "C03",
   "status": "proved",
   "theorems": [
    "Roki.C03_default_index",
    "Roki.C03_default_index_access",
    "Roki.C03_unlisted_unchanged"
   ],
   "note": "All clauses."
  },
  {
   "property": "C04",
   "status": "partial",
   "theorems": [
    "Roki.C04_within_limits",
    "Roki.C04_within_limits_cnt",
    "Roki.C04_idempotent",
    "Roki.C04_stored_as_given_partial",
    "Roki.C04_stored_as_given_fails"
   ],
   "note": "Limits and idempotence proved for every joint. \"Stored as given\" is proved for angles within half a turn; C04_stored_as_given_fails shows the code violates it outside."
  },
  {
   "property": "C05",
   "status": "partial",
   "theorems": [
    "Roki.C05_acceleration",
    "Roki.C05_velocity_partial",
    "Roki.C05_velocity_fails"
   ],
   "note": "Acceleration proved. Velocity proved when the request needs no limiting and always for spherical and floating joints; C05_velocity_fails shows the code violates it at a limit."
  },
  {
   "property": "C06",
   "status": "proved",
   "theorems": [
    "Roki.C06_fk_composition",
    "Roki.C06_fk_rotation",
    "Roki.C06_fk_rotation_any",
    "Roki.C06_root_sibling_faults"
   ],
   "note": "All links of every well-formed chain, every joint type; a root with a sibling faults."
  },
  {
   "property": "C07",
   "status": "proved",
   "theorems": [
    "Roki.C07_fk_history_free",
    "Roki.C07_fk_repeat"
   ],
   "note": "All of frames, centers of mass and adjacent frames; unaffected by previous passes."
  },
  {
   "property": "C08",
   "status": "proved",
   "theorems": [
    "Roki.C08_link_velocity",
    "Roki.C08_com_velocity",
    "Roki.C08_chain_com_velocity"
   ],
   "note": "Every link frame, link COM and the chain COM, for every joint type, over the reals."
  },
  {
   "property": "C09",
   "status": "partial",
   "theorems": [
    "Roki.C09_link_acceleration_partial",
    "Roki.C09_com_acceleration_partial",
    "Roki.C09_link_acceleration_fails",
    "Roki.C09_work_energy_partial"
   ],
   "note": "Proved for all chains whose floating joints move along a screw (all other joint types unrestricted), including COM accelerations and the work-energy theorem; C09_link_acceleration_fails shows the code is wrong for a floating joint that turns while it travels."
  },
  {
   "property": "C10",
   "status": "proved",
   "theorems": [
    "Roki.C10_angular_jacobian"
   ],
   "note": "All links, all joint types, any previous contents of the matrix."
  },
  {
   "property": "C100",
   "status": "proved",
   "theorems": [
    "Roki.C100_superposition",
    "Roki.C100_combine",
    "Roki.C100_scale"
   ],
   "note": ""
  },
  {
   "property": "C101",
   "status": "proved",
   "theorems": [
    "Roki.C101_frame_local",
    "Roki.C101_only_carried_move",
    "Roki.C101_load_local"
   ],
   "note": ""
  },
  {
   "property": "C102",
   "status": "proved",
   "theorems": [
    "Roki.C102_frames",
    "Roki.C102_dynamics"
   ],
   "note": ""
  },
  {
   "property": "C103",
   "status": "proved",
   "theorems": [
    "Roki.C103_equation",
    "Roki.C103_equation_stop",
    "Roki.C103_descent",
    "Roki.C103_stationary"
   ],
   "note": ""
  },
  {
   "property": "C104",
   "status": "proved",
   "theorems": [
    "Roki.C104_nonneg",
    "Roki.C104_singular",
    "Roki.C104_square",
    "Roki.C104_few_joints",
    "Roki.C104_axes",
    "Roki.C104_robot",
    "Roki.C104_more_joints",
    "Roki.C104_placement"
   ],
   "note": ""
  },
  {
   "property": "C105",
   "status": "partial",
   "theorems": [
    "Roki.C105_sinks",
    "Roki.C105_damping",
    "Roki.C105_refused",
    "Roki.C105_output_fails"
   ],
   "note": ""
  },
  {
   "property": "C106",
   "status": "partial",
   "theorems": [
    "Roki.C106_zkcs",
    "Roki.C106_file_fails",
    "Roki.C106_zkci_partial",
    "Roki.C106_zkcs_restores_partial",
    "Roki.C106_empty_fails"
   ],
   "note": ""
  },
  {
   "property": "C107",
   "status": "partial",
   "theorems": [
    "Roki.C107_solid",
    "Roki.C107_mesh",
    "Roki.C107_material",
    "Roki.C107_same",
    "Roki.C107_size_fails",
    "Roki.C107_names_fails"
   ],
   "note": ""
  },
  {
   "property": "C108",
   "status": "partial",
   "theorems": [
    "Roki.C108_vertices",
    "Roki.C108_ball_partial",
    "Roki.C108_nearest",
    "Roki.C108_round_fails",
    "Roki.C108_leak_fails"
   ],
   "note": ""
  },
  {
   "property": "C109",
   "status": "proved",
   "theorems": [
    "Roki.C109_equation",
    "Roki.C109_stop",
    "Roki.C109_exact",
    "Roki.C109_descent"
   ],
   "note": ""
  },
  {
   "property": "C11",
   "status": "proved",
   "theorems": [
    "Roki.C11_linear_jacobian"
   ],
   "note": "All links and points, all joint types."
  },
  {
   "property": "C110",
   "status": "proved",
   "theorems": [
    "Roki.C110_frames",
    "Roki.C110_dynamics",
    "Roki.C110_sample"
   ],
   "note": ""
  },
  {
   "property": "C111",
   "status": "partial",
   "theorems": [
    "Roki.C111_mshape_partial",
    "Roki.C111_chain_partial",
    "Roki.C111_roundtrip_partial",
    "Roki.C111_gp_partial",
    "Roki.C111_null_fails",
    "Roki.C111_overwrite_fails",
    "Roki.C111_overwrite2_fails",
    "Roki.C111_files",
    "Roki.C111_shared_fails",
    "Roki.C111_gp_fails"
   ],
   "note": "Partial because the code fails: no shapes (C111_null_fails), shared shapes (C111_shared_fails), input overwritten (C111_overwrite_fails, C111_overwrite2_fails), shapes that are no polyhedra (C111_gp_fails). The partial theorems have exactly these cases as hypotheses."
  },
  {
   "property": "C112",
   "status": "partial",
   "theorems": [
    "Roki.C112_fk_partial",
    "Roki.C112_fk_stop",
    "Roki.C112_id_partial",
    "Roki.C112_id_stop",
    "Roki.C112_mp_partial",
    "Roki.C112_options_fails",
    "Roki.C112_init_fails",
    "Roki.C112_mp_fails",
    "Roki.C112_logs_fails"
   ],
   "note": "The _partial theorems assume that a pose file that is named can be read; C112_init_fails shows what happens otherwise (rkChainInitReadZTK never reports a failure). zOptionRead and zStrListGetPtr of ZEDA are not modelled: the model starts from the options and arguments they deliver."
  },
  {
   "property": "C113",
   "status": "proved",
   "theorems": [
    "Roki.C113_history",
    "Roki.C113_values",
    "Roki.C113_forward",
    "Roki.C113_sample"
   ],
   "note": "A relation between the two descriptions is preserved by every operation; induction over the history. Passes of forward dynamics included (also the incremental one)."
  },
  {
   "property": "C114",
   "status": "proved",
   "theorems": [
    "Roki.C114_history",
    "Roki.C114_place",
    "Roki.C114_values",
    "Roki.C114_forward",
    "Roki.C114_sample",
    "Roki.C114_vertical"
   ],
   "note": ""
  },
  {
   "property": "C115",
   "status": "partial",
   "theorems": [
    "Roki.C115_link",
    "Roki.C115_orders",
    "Roki.C115_rot",
    "Roki.C115_whole",
    "Roki.C115_prevails",
    "Roki.C115_reset",
    "Roki.C115_isRot",
    "Roki.C115_base",
    "Roki.C115_file",
    "Roki.C115_plain",
    "Roki.C115_order_fails",
    "Roki.C115_sample"
   ],
   "note": "Partial: the order of the lines matters in a way that depends on the parser (C115_order_fails: rot before att)."
  },
  {
   "property": "C116",
   "status": "partial",
   "theorems": [
    "Roki.C116_ztk",
    "Roki.C116_script",
    "Roki.C116_urdf_partial"
   ],
   "note": "URDF part is partial: the root joint names the parent nil (C64_urdf_root_fails). As C64, all this is about the code after the call that ends the program (C53_nothing_fails)."
  },
  {
   "property": "C117",
   "status": "proved",
   "theorems": [
    "Roki.C117_connection",
    "Roki.C117_text",
    "Roki.C117_wrenches",
    "Roki.C117_posture",
    "Roki.C117_sample",
    "Roki.C117_wrench_sample"
   ],
   "note": ""
  },
  {
   "property": "C118",
   "status": "partial",
   "theorems": [
    "Roki.C118_scene",
    "Roki.C118_marks",
    "Roki.C118_sample",
    "Roki.C118_aabb_fails",
    "Roki.C118_axes_fails"
   ],
   "note": ""
  },
  {
   "property": "C119",
   "status": "proved",
   "theorems": [
    "Roki.C119_pendulum",
    "Roki.C119_scara",
    "Roki.C119_scara_real",
    "Roki.C119_driven",
    "Roki.C119_file",
    "Roki.C119_driven_applies"
   ],
   "note": ""
  },
  {
   "property": "C12",
   "status": "proved",
   "theorems": [
    "Roki.C12_link_to_link_angular",
    "Roki.C12_link_to_link_linear"
   ],
   "note": "Angular and linear, any two links."
  },
  {
   "property": "C120",
   "status": "partial",
   "theorems": [
    "Roki.C120_superposition",
    "Roki.C120_reciprocity_partial",
    "Roki.C120_sign_partial",
    "Roki.C120_prism_fails",
    "Roki.C120_cylin_fails",
    "Roki.C120_applies"
   ],
   "note": "By C27 the incremental update rkChainABIUpdateAddExForce gives the accelerations of the complete update used here, so the theorems hold for it too."
  },
  {
   "property": "C121",
   "status": "proved",
   "theorems": [
    "Roki.C121_lagrange",
    "Roki.C121_component",
    "Roki.C121_conserved"
   ],
   "note": ""
  },
  {
   "property": "C122",
   "status": "proved",
   "theorems": [
    "Roki.C122_linear",
    "Roki.C122_angular",
    "Roki.C122_com",
    "Roki.C122_statics"
   ],
   "note": ""
  },
  {
   "property": "C123",
   "status": "proved",
   "theorems": [
    "Roki.C123_step"
   ],
   "note": ""
  },
  {
   "property": "C124",
   "status": "proved",
   "theorems": [
    "Roki.C124_reach",
    "Roki.C124_sensitivity",
    "Roki.C124_full_turns",
    "Roki.C124_rigid"
   ],
   "note": ""
  },
  {
   "property": "C125",
   "status": "partial",
   "theorems": [
    "Roki.C125_joint_apart",
    "Roki.C125_joint_in_place_partial",
    "Roki.C125_joint_in_place_fails",
    "Roki.C125_mass_xform",
    "Roki.C125_mass_combine_partial",
    "Roki.C125_mass_combine_fails",
    "Roki.C125_body_combine",
    "Roki.C125_points_partial",
    "Roki.C125_points_fails",
    "Roki.C125_inertia"
   ],
   "note": "In place, rkJointXform of revolute and cylindrical joints overwrites the x axis before the y axis is computed from it, so the result is never a rotation; rkMPCombine overwrites the mass of the operand; rkLinkPointAcc and rkChainAM overwrite the point. No caller in the repository does this, except rkJointXformMat6D, for which it is right."
  },
  {
   "property": "C126",
   "status": "proved",
   "theorems": [
    "Roki.C126_alone",
    "Roki.C126_defined",
    "Roki.C126_schedules",
    "Roki.C126_interleaving",
    "Roki.C126_gravity_shared"
   ],
   "note": ""
  },
  {
   "property": "C127",
   "status": "proved",
   "theorems": [
    "Roki.C127_forward_kinematics",
    "Roki.C127_double",
    "Roki.C127_robot",
    "Roki.C127_stored",
    "Roki.C127_no_drift"
   ],
   "note": "C127_no_drift: the rounded frames depend on the joint values only, so errors do not accumulate over a history."
  },
  {
   "property": "C128",
   "status": "proved",
   "theorems": [
    "Roki.C128_same_machine",
    "Roki.C128_totals"
   ],
   "note": ""
  },
  {
   "property": "C129",
   "status": "proved",
   "theorems": [
    "Roki.C129_lock"
   ],
   "note": ""
  },
  {
   "property": "C13",
   "status": "proved",
   "theorems": [
    "Roki.C13_com_jacobian"
   ],
   "note": "All chains of nonzero mass."
  },
  {
   "property": "C130",
   "status": "proved",
   "theorems": [
    "Roki.C130_no_drift",
    "Roki.C130_velocities",
    "Roki.C130_robot"
   ],
   "note": "C130_no_drift: likewise for rounded velocities."
  },
  {
   "property": "C131",
   "status": "proved",
   "theorems": [
    "Roki.C131_inverse_dynamics",
    "Roki.C131_robot"
   ],
   "note": ""
  },
  {
   "property": "C132",
   "status": "proved",
   "theorems": [
    "Roki.C132_robot",
    "Roki.C132_double"
   ],
   "note": ""
  },
  {
   "property": "C133",
   "status": "partial",
   "theorems": [
    "Roki.C133_power_partial",
    "Roki.C133_conserved_partial",
    "Roki.C133_dissipated_partial"
   ],
   "note": ""
  },
  {
   "property": "C134",
   "status": "partial",
   "theorems": [
    "Roki.C134_newton_partial",
    "Roki.C134_euler_partial",
    "Roki.C134_airborne_partial"
   ],
   "note": ""
  },
  {
   "property": "C135",
   "status": "partial",
   "theorems": [
    "Roki.C135_same_machine_partial",
    "Roki.C135_prism_fails"
   ],
   "note": ""
  },
  {
   "property": "C136",
   "status": "partial",
   "theorems": [
    "Roki.C136_least_constraint",
    "Roki.C136_least_constraint_strict",
    "Roki.C136_only_torques",
    "Roki.C136_simulated_partial"
   ],
   "note": ""
  },
  {
   "property": "C137",
   "status": "proved",
   "theorems": [
    "Roki.C137_surface",
    "Roki.C137_axes",
    "Roki.C137_carried",
    "Roki.C137_momental_iff"
   ],
   "note": ""
  },
  {
   "property": "C138",
   "status": "proved",
   "theorems": [
    "Roki.C138_jacobians",
    "Roki.C138_velocity",
    "Roki.C138_robot"
   ],
   "note": ""
  },
  {
   "property": "C139",
   "status": "partial",
   "theorems": [
    "Roki.C139_history",
    "Roki.C139_values",
    "Roki.C139_jacobians",
    "Roki.C139_tested_partial",
    "Roki.C139_zmp_fails",
    "Roki.C139_yaw",
    "Roki.C139_mass_properties",
    "Roki.C139_sample",
    "Roki.C139_forward_partial",
    "Roki.C139_exact",
    "Roki.C139_fine",
    "Roki.C139_gravity_fails",
    "Roki.C139_prism_fails",
    "Roki.C139_tolerance_fails",
    "Roki.C139_forward_sample"
   ],
   "note": ""
  },
  {
   "property": "C14",
   "status": "proved",
   "theorems": [
    "Roki.C14_link_momentum_jacobian",
    "Roki.C14_momentum_jacobian",
    "Roki.C14_com_momentum_jacobian"
   ],
   "note": "Link, chain, and about the center of mass."
  },
  {
   "property": "C140",
   "status": "partial",
   "theorems": [
    "Roki.C140_history",
    "Roki.C140_values",
    "Roki.C140_jacobians",
    "Roki.C140_yaw_fails",
    "Roki.C140_symmetric",
    "Roki.C140_half_turn_fails",
    "Roki.C140_sample"
   ],
   "note": ""
  },
  {
   "property": "C141",
   "status": "partial",
   "theorems": [
    "Roki.C141_velocity",
    "Roki.C141_energy",
    "Roki.C141_com",
    "Roki.C141_forward",
    "Roki.C141_inverse_partial",
    "Roki.C141_inverse_fails",
    "Roki.C141_sample"
   ],
   "note": "rkChainID is covered only if the root does not spin about another axis than the additional velocity; C141_inverse_fails shows a floating body for which the code reports a force of 2 m w x v that no motion needs (the defect of C09). Everything else, including rkChainABI, is proved without that condition."
  },
  {
   "property": "C142",
   "status": "proved",
   "theorems": [
    "Roki.C142_history",
    "Roki.C142_same",
    "Roki.C142_inverse",
    "Roki.C142_forward",
    "Roki.C142_energy",
    "Roki.C142_brake",
    "Roki.C142_sample"
   ],
   "note": ""
  },
  {
   "property": "C143",
   "status": "proved",
   "theorems": [
    "Roki.C143_christoffel",
    "Roki.C143_power",
    "Roki.C143_motion_sample",
    "Roki.C143_velocity_forces",
    "Roki.C143_symmetric",
    "Roki.C143_sample"
   ],
   "note": ""
  },
  {
   "property": "C144",
   "status": "partial",
   "theorems": [
    "Roki.C144_size",
    "Roki.C144_balance",
    "Roki.C144_first",
    "Roki.C144_motor",
    "Roki.C144_command",
    "Roki.C144_resists",
    "Roki.C144_forward_partial",
    "Roki.C144_sample"
   ],
   "note": ""
  },
  {
   "property": "C15",
   "status": "proved",
   "theorems": [
    "Roki.C15_id_com",
    "Roki.C15_weighted_mean",
    "Roki.C15_fk_com",
    "Roki.C15_convex"
   ],
   "note": "Mass, center of mass, its velocity and acceleration; convex combination."
  },
  {
   "property": "C16",
   "status": "proved",
   "theorems": [
    "Roki.C16_combine_moments",
    "Roki.C16_combine_comm_assoc",
    "Roki.C16_body_combine",
    "Roki.C16_org_inertia",
    "Roki.C16_body_combine_inplace"
   ],
   "note": "Moments about any point add; commutative and associative; rkBodyCombine."
  },
  {
   "property": "C17",
   "status": "proved",
   "theorems": [
    "Roki.C17_xform"
   ],
   "note": "All clauses."
  },
  {
   "property": "C18",
   "status": "proved",
   "theorems": [
    "Roki.C18_root_wrench",
    "Roki.C18_root_wrench_update",
    "Roki.C18_root_force",
    "Roki.C18_root_force_com"
   ],
   "note": "Root wrench, root force, and the force as total mass times (COM acceleration - gravity)."
  },
  {
   "property": "C19",
   "status": "proved",
   "theorems": [
    "Roki.C19_power_balance",
    "Roki.C19_power_balance_update"
   ],
   "note": "Sum of joint powers = power of inertial wrenches minus power of external wrenches."
  },
  {
   "property": "C20",
   "status": "proved",
   "theorems": [
    "Roki.C20_zmp",
    "Roki.C20_zmp_id"
   ],
   "note": "Both the chain function and its value after inverse dynamics."
  },
  {
   "property": "C21",
   "status": "partial",
   "theorems": [
    "Roki.C21_yaw_torque_partial",
    "Roki.C21_yaw_torque_fails"
   ],
   "note": "The moment about the ZMP along the vertical is given exactly, and the code value is proved equal to it when that moment vanishes or the vertical force equals the root moment; C21_yaw_torque_fails shows the code value is wrong otherwise."
  },
  {
   "property": "C22",
   "status": "proved",
   "theorems": [
    "Roki.C22_energy_id",
    "Roki.C22_energy",
    "Roki.C22_nonneg"
   ],
   "note": "World expression and nonnegativity."
  },
  {
   "property": "C23",
   "status": "proved",
   "theorems": [
    "Roki.C23_angular_momentum_id",
    "Roki.C23_angular_momentum",
    "Roki.C23_transfer"
   ],
   "note": "World expression and transfer."
  },
  {
   "property": "C24",
   "status": "proved",
   "theorems": [
    "Roki.C24_ext_wrench",
    "Roki.C24_ext_wrench_exact",
    "Roki.C24_destroy"
   ],
   "note": "Exact sum up to wrenches all of whose components are below the tolerance."
  },
  {
   "property": "C25",
   "status": "proved",
   "theorems": [
    "Roki.C25_stack",
    "Roki.C25_lifo"
   ],
   "note": "All clauses."
  },
  {
   "property": "C26",
   "status": "partial",
   "theorems": [
    "Roki.C26_inverse_of_forward_partial",
    "Roki.C26_prism_fails",
    "Roki.C26_cylin_fails",
    "Roki.C26_hooke_fails",
    "Roki.C26_spher_fails",
    "Roki.C26_float_fails",
    "Roki.C26_degenerate"
   ],
   "note": "Proved for fixed, revolute, floating and breakable joints (prismatic at the root). Prismatic joints elsewhere, cylindrical, hooke, spherical joints and floating joints with non-parallel linear and angular velocity violate it: witnesses _fails."
  },
  {
   "property": "C27",
   "status": "proved",
   "theorems": [
    "Roki.C27_add_ex_force",
    "Roki.C27_history",
    "Roki.C27_two"
   ],
   "note": "Updates for additional forces equal full forward dynamics with the forces attached."
  },
  {
   "property": "C28",
   "status": "proved",
   "theorems": [
    "Roki.C28_push_pop",
    "Roki.C28_two_wlist",
    "Roki.C28_pop_two"
   ],
   "note": "Push and pop restore the biases and accelerations of links for every sequence of calls between."
  },
  {
   "property": "C29",
   "status": "partial",
   "theorems": [
    "Roki.C29_default_gravity_partial",
    "Roki.C29_fails"
   ],
   "note": "Forward dynamics uses the constant RK_G: violated after rkGravitySet; proved for the default."
  },
  {
   "property": "C30",
   "status": "partial",
   "theorems": [
    "Roki.C30_empty",
    "Roki.C30_behaviour_partial",
    "Roki.C30_state",
    "Roki.C30_lost",
    "Roki.C30_limits_fails",
    "Roki.C30_friction_fails",
    "Roki.C30_pop_fails"
   ],
   "note": "Same structure, tree, bodies, frames; every sequence of operations behaves alike on clone and original for joints whose data the clone copies; state copied. Limits, stiffness, viscosity, friction and thresholds are not copied and the wrench list is reversed: witnesses _fails."
  },
  {
   "property": "C31",
   "status": "partial",
   "theorems": [
    "Roki.C31_revol_partial",
    "Roki.C31_store_fails",
    "Roki.C31_fails",
    "Roki.C31_state_kept"
   ],
   "note": "Round trip proved for the revolute joint and for the state kept by friction updates; violated for prismatic, cylindrical and hooke joints (set/get swapped): witnesses _fails."
  },
  {
   "property": "C32",
   "status": "proved",
   "theorems": [
    "Roki.C32_dissipative",
    "Roki.C32_axes"
   ],
   "note": "All joint types and axes."
  },
  {
   "property": "C33",
   "status": "partial",
   "theorems": [
    "Roki.C33_unbroken_is_free_fails",
    "Roki.C33_broken_is_rigid_fails",
    "Roki.C33_no_wrench",
    "Roki.C33_never_exchanged_fails",
    "Roki.C33_thresholds",
    "Roki.C33_rigid_fails",
    "Roki.C33_shared_fails"
   ],
   "note": "Violated: with nonnegative thresholds the breakable joint is always free, is never rigid, transmits no wrench, and the joint function table is exchanged for all joints: witnesses _fails."
  },
  {
   "property": "C34",
   "status": "proved",
   "theorems": [
    "Roki.C34_types",
    "Roki.C34_joint_reject",
    "Roki.C34_joint_select",
    "Roki.C34_joint_all",
    "Roki.C34_motor"
   ],
   "note": "Arbitrary strings, whole tables."
  },
  {
   "property": "C35",
   "status": "proved",
   "theorems": [
    "Roki.C35_limits",
    "Roki.C35_input_only",
    "Roki.C35_driving",
    "Roki.C35_driving_trq",
    "Roki.C35_backEMF",
    "Roki.C35_inertia",
    "Roki.C35_forward",
    "Roki.C35_forward_cylin"
   ],
   "note": "All motor types: input limits, driving torque, back EMF, inertia."
  },
  {
   "property": "C36",
   "status": "partial",
   "theorems": [
    "Roki.C36_identifiers",
    "Roki.C36_lookup",
    "Roki.C36_new_constraint",
    "Roki.C36_no_joint_fails"
   ],
   "note": "Sorted registry invariant over all histories; a constraint registered before any joint gives a null dereference (proved)."
  },
  {
   "property": "C37",
   "status": "partial",
   "theorems": [
    "Roki.C37_index_partial",
    "Roki.C37_index_fails"
   ],
   "note": "All histories; the joint index is stale after unregistration (proved witness)."
  },
  {
   "property": "C38",
   "status": "partial",
   "theorems": [
    "Roki.C38_unregistered_stays_partial",
    "Roki.C38_step",
    "Roki.C38_unregistered_fails",
    "Roki.C38_stale_index_fails"
   ],
   "note": "All joints resting or unregistered; unregistered joints keep their last velocity (proved witness)."
  },
  {
   "property": "C39",
   "status": "proved",
   "theorems": [
    "Roki.C39_report"
   ],
   "note": "Any step function; the report is the loop's."
  },
  {
   "property": "C40",
   "status": "partial",
   "theorems": [
    "Roki.C40_equation",
    "Roki.C40_memory",
    "Roki.C40_builtin",
    "Roki.C40_velocity",
    "Roki.C40_empty_fails"
   ],
   "note": "Rows of the constraint equation in order of registration; no constraint gives a null dereference (proved)."
  },
  {
   "property": "C41",
   "status": "partial",
   "theorems": [
    "Roki.C41_bind_partial",
    "Roki.C41_report_partial",
    "Roki.C41_momentum_ignored",
    "Roki.C41_momentum_fails"
   ],
   "note": "Per kind of constraint; the angular momentum kinds ignore the reference (proved witness)."
  },
  {
   "property": "C42",
   "status": "partial",
   "theorems": [
    "Roki.C42_print_partial",
    "Roki.C42_decimal_partial",
    "Roki.C42_digits_fails",
    "Roki.C42_empty_fails"
   ],
   "note": "Printing and scanning of whole sequences as characters; refuted for numbers printed with too few digits and for empty steps."
  },
  {
   "property": "C43",
   "status": "partial",
   "theorems": [
    "Roki.C43_pairs",
    "Roki.C43_links_partial",
    "Roki.C43_register",
    "Roki.C43_same_link_fails",
    "Roki.C43_static_fails"
   ],
   "note": "Pairs after every history; refuted for explicit registration of one link and of two static cells."
  },
  {
   "property": "C44",
   "status": "proved",
   "theorems": [
    "Roki.C44_unreg",
    "Roki.C44_defined"
   ],
   "note": "All histories."
  },
  {
   "property": "C45",
   "status": "proved",
   "theorems": [
    "Roki.C45_aabb",
    "Roki.C45_obb",
    "Roki.C45_gjk"
   ],
   "note": "Any geometric routines; conservativeness of boxes is a hypothesis."
  },
  {
   "property": "C46",
   "status": "partial",
   "theorems": [
    "Roki.C46_shapes_partial",
    "Roki.C46_result_fails",
    "Roki.C46_undefined_fails"
   ],
   "note": "All queries but rkCDColChkOBBVert keep the shapes; that one destroys them (proved witness)."
  },
  {
   "property": "C47",
   "status": "proved",
   "theorems": [
    "Roki.C47_trunc",
    "Roki.C47_polyhedron",
    "Roki.C47_whole"
   ],
   "note": "Truncation never fails on a consistent representation, whatever the plane; the surface after is the part beneath, up to the tolerance of zIsTiny, of the surface before. Polyhedra converted by the library are consistent, and so is every result of a truncation, so the theorem holds for any number of planes. Allocation failures are not modelled. The cut is not closed by the code: the theorem is about the surface, not about a solid."
  },
  {
   "property": "C48",
   "status": "proved",
   "theorems": [
    "Roki.C48_registers",
    "Roki.C48_box",
    "Roki.C48_surface"
   ],
   "note": "Registers is a specification of shared vertices and edges. With an exact tolerance the surface equals the union of the triangles."
  },
  {
   "property": "C49",
   "status": "proved",
   "theorems": [
    "Roki.C49_first",
    "Roki.C49_create",
    "Roki.C49_symm",
    "Roki.C49_type"
   ],
   "note": "All arrays whose entries have keys."
  },
  {
   "property": "C50",
   "status": "proved",
   "theorems": [
    "Roki.C50_forest",
    "Roki.C50_chain",
    "Roki.C50_twice"
   ],
   "note": "The hypothesis on the calls (Proper) is stated on the sequence of calls alone. C50_twice shows what happens without it: attaching a link twice makes a loop of sibling pointers. rkLinkAddSibl is modelled as the code calls it, from rkLinkAddChild; called directly it does not set the parent."
  },
  {
   "property": "C51",
   "status": "partial",
   "theorems": [
    "Roki.C51_union_partial",
    "Roki.C51_order",
    "Roki.C51_twice_fails",
    "Roki.C51_range_fails"
   ],
   "note": "All chains and selections; order does not matter. Refuted for repeated selections (counted twice) and for numbers outside the chain (out-of-bounds read)."
  },
  {
   "property": "C52",
   "status": "partial",
   "theorems": [
    "Roki.C52_shapes_partial",
    "Roki.C52_axis_partial",
    "Roki.C52_mass_partial",
    "Roki.C52_inertia_fails",
    "Roki.C52_com_fails",
    "Roki.C52_axis_fails"
   ],
   "note": "Geometry (origins of links, world poses of shapes, order and types of joints) is kept for every tree. The mass properties and axes are not: urdf2ztk_xform_inv uses the attitude relative to the parent for the inertia tensor, the centre of mass is never re-expressed, and the axis, given in the joint frame, is applied in the world frame."
  },
  {
   "property": "C53",
   "status": "partial",
   "theorems": [
    "Roki.C53_nothing_fails"
   ],
   "note": "Refuted for all command lines: main calls cad2ztk_how_to_use, which exits."
  },
  {
   "property": "C54",
   "status": "partial",
   "theorems": [
    "Roki.C54_exact_partial",
    "Roki.C54_half_turn_fails",
    "Roki.C54_hooke_fails"
   ],
   "note": "Prismatic, cylindrical away from half a turn, spherical, floating joints, and revolute and universal joints away from the singular attitudes; refuted at half a turn and at the gimbal lock."
  },
  {
   "property": "C55",
   "status": "proved",
   "theorems": [
    "Roki.C55_momentum",
    "Roki.C55_particles",
    "Roki.C55_transfer",
    "Roki.C55_moved_body",
    "Roki.C55_combine"
   ],
   "note": "Momentum of particles, transfer, combination."
  },
  {
   "property": "C56",
   "status": "partial",
   "theorems": [
    "Roki.C56_roundtrip_partial",
    "Roki.C56_hooke_fails"
   ],
   "note": "All chains of all joint types; universal joints with the first angle below a right angle. Beyond it the frame is lost (proved witness)."
  },
  {
   "property": "C57",
   "status": "partial",
   "theorems": [
    "Roki.C57_repeat_fails",
    "Roki.C57_pop_partial"
   ],
   "note": "The code violates it: a link that carries forces but has no descendant with forces subtracts them again at each call (C57_repeat_fails). With the documented pop between the calls nothing of earlier updates remains (C57_pop_partial, any number of repetitions)."
  },
  {
   "property": "C58",
   "status": "proved",
   "theorems": [
    "Roki.C58_minimum",
    "Roki.C58_rest",
    "Roki.C58_solveRate"
   ],
   "note": "Completing the square; uniqueness from positive weights."
  },
  {
   "property": "C59",
   "status": "proved",
   "theorems": [
    "Roki.C59_step"
   ],
   "note": "All histories and steps."
  },
  {
   "property": "C60",
   "status": "partial",
   "theorems": [
    "Roki.C60_all_partial",
    "Roki.C60_again",
    "Roki.C60_unreg",
    "Roki.C60_chainUnreg",
    "Roki.C60_all_fails"
   ],
   "note": "rkCDPairReg misses pairs when a cell is already paired (proved witness); complete otherwise."
  },
  {
   "property": "C61",
   "status": "partial",
   "theorems": [
    "Roki.C61_listed",
    "Roki.C61_agrees",
    "Roki.C61_keep",
    "Roki.C61_axes_partial",
    "Roki.C61_start",
    "Roki.C61_plane",
    "Roki.C61_axes_fails"
   ],
   "note": "All clauses but the contact axes, which are transformed as points (proved witness)."
  },
  {
   "property": "C62",
   "status": "partial",
   "theorems": [
    "Roki.C62_vert",
    "Roki.C62_vol",
    "Roki.C62_gjk_fails",
    "Roki.C62_obbVert_fails"
   ],
   "note": "Refuted for rkCDColChkGJK and rkCDColChkOBBVert."
  },
  {
   "property": "C63",
   "status": "partial",
   "theorems": [
    "Roki.C63_read",
    "Roki.C63_unbound_fails",
    "Roki.C63_alias_fails",
    "Roki.C63_roundtrip",
    "Roki.C63_write_fails"
   ],
   "note": "Reading and printing hold for sections with one pair of keys; refuted for a section without keys, a section that mixes the two groups of parameters, and the written file name."
  },
  {
   "property": "C64",
   "status": "partial",
   "theorems": [
    "Roki.C64_ztk_partial",
    "Roki.C64_shape_fails",
    "Roki.C64_urdf_type_fails",
    "Roki.C64_urdf_root_fails"
   ],
   "note": "The ZTK conversion after the early exit of main is proved for all tables; refuted for shape rows without a link, URDF joint types and the URDF root joint."
  },
  {
   "property": "C65",
   "status": "proved",
   "theorems": [
    "Roki.C65_cat",
    "Roki.C65_sub",
    "Roki.C65_round_trip"
   ],
   "note": "All joint types; rotations compared as matrices of angle-axis vectors."
  },
  {
   "property": "C66",
   "status": "partial",
   "theorems": [
    "Roki.C66_point_velocity",
    "Roki.C66_point_acceleration_partial"
   ],
   "note": "Velocity for all chains; acceleration excludes floating joints with non-parallel velocities, for which C09 fails."
  },
  {
   "property": "C67",
   "status": "proved",
   "theorems": [
    "Roki.C67_new_joint"
   ],
   "note": "all eight types; queryAssign searches the table of type names"
  },
  {
   "property": "C68",
   "status": "proved",
   "theorems": [
    "Roki.C68_reset",
    "Roki.C68_count",
    "Roki.C68_count_history"
   ],
   "note": "C68_count and C68_count_history state what the counter of discarded vertices holds after one truncation and after any sequence of truncations."
  },
  {
   "property": "C69",
   "status": "partial",
   "theorems": [
    "Roki.C69_back_fails",
    "Roki.C69_discarded_fails"
   ],
   "note": "rkBREP2PH3D passes the address of the pointer member to zVec3DCopy, so that no coordinate arrives; discarded faces are not left out."
  },
  {
   "property": "C70",
   "status": "partial",
   "theorems": [
    "Roki.C70_file_roundtrip_partial",
    "Roki.C70_nomotor_fails",
    "Roki.C70_mass",
    "Roki.C70_material_fails"
   ],
   "note": "The full claim is kept in properties.jsonl. The round trip is proved for robots that meet Spec.File.Writable; without a motor array or without a material the file cannot be read back as it was (two _fails theorems)."
  },
  {
   "property": "C71",
   "status": "partial",
   "theorems": [
    "Roki.C71_parents_partial",
    "Roki.C71_first_fails",
    "Roki.C71_cycle_fails"
   ],
   "note": "Proved for declarations that lead to the first link; other declarations are accepted or run without end (_fails)."
  },
  {
   "property": "C72",
   "status": "partial",
   "theorems": [
    "Roki.C72_rejected_iff_partial",
    "Roki.C72_parent_fails",
    "Roki.C72_motor_fails",
    "Roki.C72_crash_fails"
   ],
   "note": "The claim is false: the null pointer is returned exactly for files without links (C72_rejected_iff_partial); the _fails theorems give the outcomes for wrong names."
  },
  {
   "property": "C73",
   "status": "proved",
   "theorems": [
    "Roki.C73_two_steps",
    "Roki.C73_again"
   ],
   "note": ""
  },
  {
   "property": "C74",
   "status": "proved",
   "theorems": [
    "Roki.C74_last_write",
    "Roki.C74_pose_kept",
    "Roki.C74_total",
    "Roki.C74_limits_in_force"
   ],
   "note": ""
  },
  {
   "property": "C75",
   "status": "partial",
   "theorems": [
    "Roki.C75_com_acceleration_partial",
    "Roki.C75_newton_partial",
    "Roki.C75_euler_partial"
   ],
   "note": ""
  },
  {
   "property": "C76",
   "status": "partial",
   "theorems": [
    "Roki.C76_energy_partial",
    "Roki.C76_momentum_partial"
   ],
   "note": ""
  },
  {
   "property": "C77",
   "status": "proved",
   "theorems": [
    "Roki.C77_position",
    "Roki.C77_attitude",
    "Roki.C77_com"
   ],
   "note": ""
  },
  {
   "property": "C78",
   "status": "partial",
   "theorems": [
    "Roki.C78_world_position",
    "Roki.C78_world_attitude",
    "Roki.C78_l2l_attitude",
    "Roki.C78_l2l_position_partial",
    "Roki.C78_com",
    "Roki.C78_momentum",
    "Roki.C78_l2l_position_fails",
    "Roki.C78_zero_error",
    "Roki.C78_reference"
   ],
   "note": "The reference by z-y-z angles is included."
  },
  {
   "property": "C79",
   "status": "partial",
   "theorems": [
    "Roki.C79_config",
    "Roki.C79_stop",
    "Roki.C79_reject_fails",
    "Roki.C79_order_fails"
   ],
   "note": "C79_config covers files in which every line makes sense; C79_stop and C79_reject_fails show that files with a senseless line are not rejected, C79_order_fails that the order of joints and constraints matters."
  },
  {
   "property": "C80",
   "status": "partial",
   "theorems": [
    "Roki.C80_fk_log",
    "Roki.C80_empty_fails"
   ],
   "note": "Holds for non-empty sequences; an empty one crashes (C80_empty_fails)."
  },
  {
   "property": "C81",
   "status": "partial",
   "theorems": [
    "Roki.C81_continuous",
    "Roki.C81_id_log",
    "Roki.C81_id_pose",
    "Roki.C81_rates_partial",
    "Roki.C81_time_fails",
    "Roki.C81_zmp_fails"
   ],
   "note": "Proved for poses and torques; rates for steps of equal durations. Fails: time of the line, uninitialised zero moment point."
  },
  {
   "property": "C82",
   "status": "partial",
   "theorems": [
    "Roki.C82_ik_log",
    "Roki.C82_hold_partial",
    "Roki.C82_unregistered"
   ],
   "note": "Missing: holding constraints on the angular momentum (C41)."
  },
  {
   "property": "C83",
   "status": "partial",
   "theorems": [
    "Roki.C83_merge",
    "Roki.C83_sequence_fails"
   ],
   "note": "Proved for the tool's own format; fails for IK sequence files."
  },
  {
   "property": "C84",
   "status": "partial",
   "theorems": [
    "Roki.C84_pose_partial",
    "Roki.C84_neutral_fails",
    "Roki.C84_unknown_fails"
   ],
   "note": "Joints that are neutral when the pose is written must be so in the chain that reads; unknown joints are not rejected."
  },
  {
   "property": "C85",
   "status": "partial",
   "theorems": [
    "Roki.C85_converted_partial",
    "Roki.C85_dynamics_fails",
    "Roki.C85_floating_fails",
    "Roki.C85_unknown_fails",
    "Roki.C85_root_fails",
    "Roki.C85_type_fails",
    "Roki.C85_geometry_fails",
    "Roki.C85_child_fails"
   ],
   "note": "partial: the converter itself does not satisfy the full claim (see the _fails theorems); the positive theorem covers documents whose root is the first link."
  },
  {
   "property": "C86",
   "status": "proved",
   "theorems": [
    "Roki.C86_virtual_work"
   ],
   "note": ""
  },
  {
   "property": "C87",
   "status": "proved",
   "theorems": [
    "Roki.C87_inertia_affine",
    "Roki.C87_inertia_symmetric",
    "Roki.C87_inertia_energy",
    "Roki.C87_inertia_semidefinite"
   ],
   "note": ""
  },
  {
   "property": "C88",
   "status": "proved",
   "theorems": [
    "Roki.C88_external_wrench"
   ],
   "note": ""
  },
  {
   "property": "C89",
   "status": "proved",
   "theorems": [
    "Roki.C89_gravity_torque"
   ],
   "note": ""
  },
  {
   "property": "C90",
   "status": "proved",
   "theorems": [
    "Roki.C90_time_scaling"
   ],
   "note": ""
  },
  {
   "property": "C91",
   "status": "partial",
   "theorems": [
    "Roki.C91_brep",
    "Roki.C91_brepVert",
    "Roki.C91_fast_partial",
    "Roki.C91_fast_fails",
    "Roki.C91_check",
    "Roki.C91_index_fails"
   ],
   "note": "The count and the results of rkCDColVolBREP and rkCDColVolBREPVert hold for hulls that refer to their own vertices only. rkCDColVolBREPFast is undefined if the boxes of the first marked pair's polyhedra do not intersect (C91_fast_fails), and the index check accepts one vertex too many (C91_index_fails)."
  },
  {
   "property": "C92",
   "status": "partial",
   "theorems": [
    "Roki.C92_exchange",
    "Roki.C92_order",
    "Roki.C92_closed",
    "Roki.C92_vol_fails"
   ],
   "note": "rkCDColVol never computes the normal it uses (C92_vol_fails, for all states)."
  },
  {
   "property": "C93",
   "status": "partial",
   "theorems": [
    "Roki.C93_equation_of_motion_partial",
    "Roki.C93_unique_partial"
   ],
   "note": "Holds for the joints for which C26 holds; the other joint types are those of the C26 counterexamples."
  },
  {
   "property": "C94",
   "status": "partial",
   "theorems": [
    "Roki.C94_life_partial",
    "Roki.C94_denied_partial",
    "Roki.C94_leak_fails",
    "Roki.C94_order_fails",
    "Roki.C94_offset_fails",
    "Roki.C94_denied_fails"
   ],
   "note": "The former vector __c is not released when the constraints change (leak); a constraint before the first joint follows a null pointer; rkIKCreate does not test the request for _j_ofs; pointers left after a denied request are released again by rkIKDestroy. Each has a witness."
  },
  {
   "property": "C95",
   "status": "proved",
   "theorems": [
    "Roki.C95_inertia_definite",
    "Roki.C95_inertia_regular"
   ],
   "note": ""
  },
  {
   "property": "C96",
   "status": "partial",
   "theorems": [
    "Roki.C96_regular",
    "Roki.C96_equation_of_motion_partial",
    "Roki.C96_unique_partial",
    "Roki.C96_computed_torque_partial"
   ],
   "note": "C96_computed_torque_partial: the torques of inverse dynamics for accelerations x are those applied exactly if forward dynamics returns x."
  },
  {
   "property": "C97",
   "status": "partial",
   "theorems": [
    "Roki.C97_placed_partial",
    "Roki.C97_axis_partial",
    "Roki.C97_mass_partial",
    "Roki.C97_shapes",
    "Roki.C97_axis_fails",
    "Roki.C97_com_fails",
    "Roki.C97_inertia_fails"
   ],
   "note": "The rotation to the joint axis is multiplied on the wrong side, and centres of mass and inertia tensors below turned links or axes are wrong (_fails); small numbers that the writer leaves out are excluded."
  },
  {
   "property": "C98",
   "status": "partial",
   "theorems": [
    "Roki.C98_clone",
    "Roki.C98_destroy",
    "Roki.C98_clone_destroy",
    "Roki.C98_returned_iff",
    "Roki.C98_history_partial",
    "Roki.C98_nothing_lost_partial",
    "Roki.C98_leak_fails",
    "Roki.C98_abi_twice_fails",
    "Roki.C98_abi_lost_fails",
    "Roki.C98_denied_fails",
    "Roki.C98_kinds",
    "Roki.C98_clone_complete"
   ],
   "note": "Violated for chains with motors or materials (exact number of lost blocks proved, C98_leak_fails), for forward dynamics prepared or released twice, and for denied requests. Proved: no double release or use after release for all orderly programs, complete return for chains without motors and materials, sharing never."
  },
  {
   "property": "C99",
   "status": "partial",
   "theorems": [
    "Roki.C99_history_partial",
    "Roki.C99_destroy",
    "Roki.C99_vertices_partial",
    "Roki.C99_obb_partial",
    "Roki.C99_denied_fails",
    "Roki.C99_obb_fails"
   ],
   "note": "Partial because of two defects: the cell is not released when its polyhedron cannot be copied (src/rk_cd.c:60-68), and rkCDColChkOBBVert releases and remakes the polyhedron of a cell for each colliding pair (src/rk_cd.c:545-548), so contact vertices of an earlier pair dangle. Boundary representations used inside queries and the interior of a polyhedron (several blocks in the code) are not modelled."
  }
 ]
}