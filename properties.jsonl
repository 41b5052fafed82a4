{"id": "C01", "title": "Joint offsets tile the joint vector", "statement": "After rkChainSetOffset, the slices [offset, offset+size) of the movable joints, taken in link order, partition [0, rkChainJointSize) with no gap and no overlap, and every zero-size joint has offset -1.", "quantifier": "all chains (any number of links, any joint types)", "why_tests_cant": "tests fix a handful of chains; overlap or a gap only shows up for particular mixes of joint sizes", "anchors": ["src/rk_chain.c:rkChainJointSize", "src/rk_chain.c:rkChainSetOffset", "include/roki/rk_link.h:rkLinkOffset"]}
{"id": "C02", "title": "Joint vector set/get round trip", "statement": "Setting the whole joint vector (displacement, velocity, acceleration or torque) and reading it back gives, in every slice, exactly what that joint stores for that slice: the vector itself for velocity, acceleration and torque, and the joint's limited value for displacement.", "quantifier": "all chains, all joint vectors of the chain's joint size", "why_tests_cant": "a wrong offset shows only for particular joint-size sequences and vectors", "anchors": ["src/rk_chain.c:rkChainSetJointDisAll", "src/rk_chain.c:rkChainGetJointDisAll", "src/rk_chain.c:rkChainSetJointVelAll", "src/rk_chain.c:rkChainGetJointVelAll"]}
{"id": "C03", "title": "Indexed joint access agrees with whole-chain access", "statement": "The default joint index lists exactly the links with a movable joint in order, its joint size is the chain's joint size, access through it is the same as whole-chain access, and setting through any index leaves the joints that are not listed unchanged.", "quantifier": "all chains, all joint indices without repetition, all vectors", "why_tests_cant": "quantifies over every subset of joints", "anchors": ["src/rk_chain.c:rkChainCreateDefaultJointIndex", "src/rk_chain.c:rkChainJointIndexSize", "src/rk_chain.c:rkChainSetJointDis", "src/rk_chain.c:rkChainGetJointDis"]}
{"id": "C04", "title": "Joint displacement never leaves its limits", "statement": "After any displacement is set on a revolute, prismatic, cylindrical or hooke joint whose minimum does not exceed its maximum, the stored displacement lies within the limits; setting the stored value again changes nothing; and a value that already respects the limits is stored as given.", "quantifier": "all limits, all displacements (reals, infinite limits included), all histories of sets", "why_tests_cant": "limits and inputs range over a continuum; the last clause is false for revolute limits reaching beyond one half turn", "anchors": ["src/rk_joint_revol.c:_rkJointRevolLimDis", "src/rk_joint_revol.c:_rkJointRevolSetDis", "src/rk_joint_prism.c:_rkJointPrismLimDis", "src/rk_joint_cylin.c:_rkJointCylinLimDis", "src/rk_joint_hooke.c:_rkJointHookeLimDis"]}
{"id": "C05", "title": "Continuous displacement update differentiates what it stores", "statement": "rkJointSetDisCNT leaves a velocity equal to (new stored displacement - old stored displacement)/dt and an acceleration equal to the change of velocity over dt.", "quantifier": "all joint states, all target displacements, all dt > 0", "why_tests_cant": "the discrepancy appears only when the target is changed by the limiter", "anchors": ["src/rk_joint_revol.c:_rkJointRevolSetDisCNT", "src/rk_joint_prism.c:_rkJointPrismSetDisCNT", "src/rk_joint_cylin.c:_rkJointCylinSetDisCNT", "src/rk_joint_hooke.c:_rkJointHookeSetDisCNT"]}
{"id": "C06", "title": "Forward kinematics is the composition of rigid transformations from the root", "statement": "After rkChainUpdateFK the world frame of every link reachable from the root is the ordered product of the joint-adjusted frames on the path from the root, and its attitude is a rotation whenever the original frames and joint rotations are rotations.", "quantifier": "all link trees, all joint types, all displacements", "why_tests_cant": "trees have unbounded depth and branching", "anchors": ["src/rk_link.c:rkLinkUpdateFrame", "src/rk_chain.c:rkChainUpdateFK", "src/rk_joint_revol.c:_rkJointRevolXform"]}
{"id": "C07", "title": "Forward kinematics forgets earlier poses", "statement": "rkChainFK yields link frames that depend only on the chain's constant data and the given displacement; earlier FK calls, velocities or link states have no effect, and repeating the call changes nothing.", "quantifier": "all chains, all histories of earlier displacements", "why_tests_cant": "quantifies over all earlier histories", "anchors": ["src/rk_chain.c:rkChainFK", "src/rk_link.c:rkLinkUpdateFrame"]}
{"id": "C08", "title": "Link velocity is the time derivative of the link pose", "statement": "When joints move along any differentiable trajectory whose velocities have been set, the link angular and linear velocities computed by rkChainUpdateVel are the rates of change of the world attitude and position of that link (expressed in the link frame).", "quantifier": "all trees of fixed, revolute, prismatic, cylindrical and hooke joints, all differentiable joint trajectories", "why_tests_cant": "a statement about derivatives over all trajectories; finite differences only sample it", "anchors": ["src/rk_link.c:rkLinkUpdateVel", "src/rk_joint_revol.c:_rkJointRevolIncVel", "src/rk_joint_prism.c:_rkJointPrismIncVel", "src/rk_joint_cylin.c:_rkJointCylinIncVel", "src/rk_joint_hooke.c:_rkJointHookeIncVel"]}
{"id": "C09", "title": "Link acceleration is the time derivative of link velocity", "statement": "Link accelerations computed by rkChainUpdateAcc are the classical accelerations of the link: the derivative of the world angular velocity, and the second derivative of the world position offset by the gravity term given to the root.", "quantifier": "all trees, joint types and twice differentiable trajectories", "why_tests_cant": "Coriolis terms vanish in the symmetric configurations tests use", "anchors": ["src/rk_link.c:rkLinkUpdateAcc", "src/rk_joint_revol.c:_rkJointRevolIncAccOnVel", "src/rk_joint_float.c:_rkJointFloatIncAccOnVel"]}
{"id": "C10", "title": "Angular Jacobian reproduces link angular velocity", "statement": "The world angular Jacobian of a link times the joint velocity vector is that link's world angular velocity as computed by the recursive velocity pass.", "quantifier": "all trees, all joint types, all links, all states", "why_tests_cant": "the repository's test checks one 8-link chain at random states", "anchors": ["src/rk_jacobi.c:rkChainLinkWldAngJacobi", "src/rk_link.c:rkLinkUpdateVel"]}
{"id": "C100", "title": "Joint torques superpose over masses and loads", "statement": "At a given pose and motion, the joint torques of inverse dynamics depend linearly on the mass properties and external wrenches of the links: if the mass, first moment and second moment of every link and the resultant of its external wrenches are a times those of a first robot plus b times those of a second, then so is every joint wrench and every joint torque; velocities and accelerations of links do not change. In particular combining a payload with a link by rkMPCombine adds the torques of the payload, and scaling all masses, inertias and wrenches scales all torques.", "quantifier": "all well-formed chains (any tree, any joint types), all poses, joint velocities, accelerations, gravity, all mass properties and lists of external wrenches", "why_tests_cant": "A test compares two load cases of one robot; an error in one joint type or in one depth of the tree passes.", "anchors": ["src/rk_chain.c:rkChainID", "src/rk_link.c:rkLinkUpdateWrench", "src/rk_link.c:rkLinkUpdateRate", "src/rk_body.c:rkMPCombine", "src/rk_body.c:rkBodyNetWrench"]}
{"id": "C101", "title": "A joint moves and carries exactly the links beyond it", "statement": "The frame of a link depends only on the original frames and joints of the links on the path from the root to it, so moving one joint leaves every link that it does not carry where it was; and the wrench and torque at a joint depend only on the mass properties and external wrenches of the links it carries, so the loads of other links can be changed without any effect on it.", "quantifier": "all well-formed chains, all pairs of a joint and a link, all joint displacements, all loads of the other links, all motions", "why_tests_cant": "Requires all trees and all pairs of links; a traversal that leaks state from a sister branch shows only on some trees.", "anchors": ["src/rk_link.c:rkLinkUpdateFrame", "src/rk_link.c:rkLinkUpdateWrench", "src/rk_chain.c:rkChainUpdateFK", "src/rk_chain.c:rkChainID"]}
{"id": "C102", "title": "Placing a robot elsewhere changes nothing but its place", "statement": "If the original frame of the root is moved by a rigid motion X, forward kinematics moves the frame and center of mass of every link by X; and if gravity is turned by X too, inverse dynamics gives the same link velocities and accelerations in link coordinates, the same joint wrenches and the same joint torques.", "quantifier": "all well-formed chains, all rigid motions X, all joint displacements, velocities, accelerations, all gravity vectors", "why_tests_cant": "Ranges over all motions of space and all robots; a forgotten or transposed rotation at the root is invisible for the identity placement used in tests.", "anchors": ["include/roki/rk_chain.h:rkChainOrgFrame", "src/rk_chain.c:rkChainUpdateFK", "src/rk_chain.c:rkChainID", "src/rk_link.c:rkLinkUpdateRate"]}
{"id": "C103", "title": "Inverse kinematics goes downhill and stops only where no joint motion helps", "statement": "The joint velocities that the solver returns with the default method never increase the weighted squared error of its constraints. Along every motion of the chain that has these velocities the error of constraints on positions of points of links and of the center of mass has a rate of change that is not positive, and that is negative unless all the velocities are zero. A step of up to twice the velocities does not increase the error of the linear equation. The velocities are zero only where the error is stationary for every motion of the registered joints.", "quantifier": "all chains, all histories of calls on the solver, all weights, all motions through the present pose; joints that are not registered at rest, constraints that do not accumulate errors", "why_tests_cant": "A test checks that a target is reached from a few starting poses; descent at every pose, for every set of constraints and weights, cannot be sampled.", "anchors": ["src/rk_ik.c:rkIKSolveRate", "src/rk_ik.c:rkIKJointVelAD", "src/rk_ik.c:rkIKEq", "src/rk_jacobi.c:rkChainLinkWldLinJacobi", "src/rk_jacobi.c:rkChainCOMJacobi"]}
{"id": "C104", "title": "Manipulability vanishes exactly at singular poses", "statement": "The measure of manipulability of a Jacobian matrix is defined and not negative for every matrix. It is zero exactly where there is a direction in which the end cannot move, whatever the joint velocities. It is the absolute value of the determinant for a square matrix, zero with fewer joints than directions, does not depend on the axes or on where the robot is placed, and never grows when a joint is removed.", "quantifier": "all matrices of any size; all chains, links, points of links, poses and placements", "why_tests_cant": "Singular poses form thin sets that sampling misses; the equivalence has to hold for every robot and pose.", "anchors": ["src/rk_jacobi.c:rkJacobiManip", "src/rk_jacobi.c:rkChainLinkWldLinJacobi"]}
{"id": "C105", "title": "The ground that rk_ground designs", "statement": "The contact model of rk_ground is elastic, has the friction coefficients that are given, and lets a body of the given mass rest exactly at the given depth, with exactly the given damping coefficient (the body settles without oscillation exactly from one on). A tiny depth and too few arguments are refused; every other command line gives a printed contact model.", "quantifier": "all masses, depths, damping and friction coefficients; all command lines", "why_tests_cant": "The equilibrium and the threshold of oscillation are equivalences over all real parameters; the undefined cases depend on argument counts and null pointers that happen to print.", "anchors": ["app/rk_ground.c:main", "src/rk_contact.c:rkContactInfoElasticCreate", "src/rk_contact.c:rkContactInfoFPrintZTK"]}
{"id": "C106", "title": "Motion files converted to link configurations and pose files", "statement": "zvs2zkcs prints, for every step of a motion file and in order, the duration and the frames that forward kinematics gives all links for that step alone, to the standard output or to the file that is named; a line is enough to restore the frames with rkChainSetConf. zvs2zkci prints the pose file of the chosen step: read into any copy of the robot it reproduces displacements, frames and centres of mass of this step.", "quantifier": "all chains, motion files of any length, choices of a step, initial pose files and copies of the robot in any pose", "why_tests_cant": "Steps must not influence each other for every history, and the round trip must hold for every robot and pose.", "anchors": ["app/zvs2zkcs.c:main", "app/zvs2zkci.c:main", "src/rk_chain.c:rkChainGetConf", "src/rk_chain.c:rkChainInitFPrintZTK"]}
{"id": "C107", "title": "urdf2ztk keeps the shapes and the materials of a URDF document", "statement": "For every visual element whose geometry is a box, a sphere or a cylinder, the file written has a shape section of that name such that the set of points of the solid read from it, on the link as placed by the file, is the set of points of the solid of the document on the link as placed by the document; a mesh keeps its file, scale and place. The section names the material of the element. A material whose definitions agree is written, and with that colour only. Without materials and contents of shapes the file is the one of C85 and C97. Where this fails: a geometry with missing numbers is undefined behaviour, and visual elements of different links with the same name give sections that cannot be told apart.", "quantifier": "all URDF documents that describe a tree of links, all links, all visual elements, all materials, all points of space", "why_tests_cant": "the identity is between infinite sets of points after two changes of frame, for every tree of links, every origin and every axis", "anchors": ["app/urdf2ztk.c: urdf2ztk_eval_shape_geometry, urdf2ztk_eval_shape_material, urdf2ztk_eval_material, urdf2ztk_eval_color, output_ztk_shape, output_ztk_material"]}
{"id": "C108", "title": "The vertices of a chain enclose it, and so does its bounding ball", "statement": "After forward kinematics, the list of vertices of a chain has points of its shapes only, placed where the pose puts the links; if the shapes are polyhedra it has all their vertices and encloses every point of the chain, and the bounding ball contains every point of the chain. The nearest vertex of a body is nearest in space, at the distance returned.", "quantifier": "all chains and poses, all numbers and kinds of shapes, all points", "why_tests_cant": "The enclosed points are infinitely many, and the vertices depend on the pose of every link on the path; that round shapes stick out of the ball shows only between the vertices of their polyhedra.", "anchors": ["src/rk_chain.c:rkChainVertList", "src/rk_chain.c:rkChainBBall", "src/rk_body.c:rkBodyContigVert"]}
{"id": "C109", "title": "Every method for the joint velocities goes downhill, and all stop at the same poses", "statement": "Whichever of the three methods for the joint velocities is chosen for an inverse kinematics solver, a step along the velocities found, of less than twice their length, reduces the weighted error of the constraint equation unless the velocities are zero; along every motion of the chain with these velocities the weighted squared error of position constraints decreases. The three methods give zero velocities at exactly the same poses, those where no motion of the registered joints reduces the error to first order. The exact method meets all constraints with a weight whenever some velocities do, with the smallest velocities.", "quantifier": "all chains and poses, all sets of constraints and registered joints, all weights, all histories of calls of the solver, all motions", "why_tests_cant": "A test compares velocities at sampled poses; descent along every motion, and the equality of the sets of poses where the methods stop, concern all poses, singular ones included.", "anchors": ["src/rk_ik.c:rkIKJointVelMP", "src/rk_ik.c:rkIKJointVelSR", "src/rk_ik.c:rkIKJointVelAD", "src/rk_ik.c:rkIKSolveRate"]}
{"id": "C11", "title": "Linear Jacobian reproduces point velocity", "statement": "The world linear Jacobian of a point of a link times the joint velocity vector is the world velocity of that point given by the recursive velocity pass.", "quantifier": "all trees, all joint types, all links and points, all states", "why_tests_cant": "as above", "anchors": ["src/rk_jacobi.c:rkChainLinkWldLinJacobi", "src/rk_link.c:rkLinkPointVel"]}
{"id": "C110", "title": "The results do not depend on the numbering of the links or the order of siblings", "statement": "Take two descriptions of the same robot that list its links in different orders, and list the children of a link in different orders: link i of the first is link s(i) of the second, with the same ancestors, original frame, joint, mass properties and external forces. Then rkChainUpdateFK gives corresponding links the same world frame and center of mass, the two chains have the same mass and center of mass, and rkChainID, given joint velocities and accelerations that agree joint by joint, gives corresponding links the same velocity, acceleration, joint wrench and joint torques, the torque vectors agree joint by joint, and the center of mass moves alike. (The velocities, accelerations and torques of a joint stand at different places in the two joint vectors.)", "quantifier": "all pairs of chains that form one tree and differ by any renumbering of the links and any reordering of siblings, all joint states, all velocity and acceleration vectors, all root accelerations", "why_tests_cant": "A test compares a few orders of a few robots; the number of orders grows with the factorial of the number of links, and the recursion visits links in an order that depends on all of them.", "anchors": ["src/rk_link.c:rkLinkUpdateFrame", "src/rk_link.c:rkLinkUpdateRate", "src/rk_link.c:rkLinkUpdateWrench", "src/rk_chain.c:rkChainSetOffset", "src/rk_chain.c:rkChainUpdateFK", "src/rk_chain.c:rkChainUpdateID", "src/rk_chain.c:rkChainCalcCOM", "src/rk_chain.c:rkChainCalcMass"]}
{"id": "C111", "title": "Converters between robots and sets of shapes keep the points in space", "statement": "chain2mshape writes every shape that a link uses, in the order of the links, under its name and moved to the frame of the link, so that the shapes of the file together occupy exactly the points that the robot occupies; mshape2chain writes a robot file whose robot, read back, occupies exactly the points of the shapes; applying both gives back a robot of the same points. chain2gp prints data for which exactly the sides of the faces of the robot are drawn. The tools write one file and leave all others, and in particular their input, as it is.", "quantifier": "all robots with any number of links and shapes at any frames, all sets of shapes, all file systems", "why_tests_cant": "A test tries a few robots; sharing of shapes between links, equal names, robots without shapes and the place of the output depend on the whole model and on the directory.", "anchors": ["app/chain2mshape.c:chain2mshapeConvert", "app/chain2mshape.c:main", "app/mshape2chain.c:mshape2chainConvert", "app/mshape2chain.c:main", "app/chain2gp.c:conv_chain", "app/chain2gp.c:output_shape", "src/rk_link.c:_rkLinkShapeFromZTK"]}
{"id": "C112", "title": "Command lines of rk_fk, rk_id and rk_mp", "statement": "rk_fk and rk_id compute with exactly the files that their command lines name: the chain file of the first argument, the link of the second (rk_fk), the sequence of the next argument or, if it is missing, of the option -seq or else of the standard input, and the initial pose of the option -init; the logs are named after the sequence. If something they need is missing they stop, rk_fk without touching any file, rk_id having touched only logs of that sequence. rk_mp takes the model and the pose from its arguments or options. Where this fails: the documented options -chain and -link are ignored, an initial pose file that cannot be read is ignored without stopping, rk_mp goes on with a model or a pose it could not read, and rk_id empties the logs before the one it cannot open.", "quantifier": "all command lines, all contents of the file system, all chains and sequences", "why_tests_cant": "A test runs a few command lines on a few files; the claim is about every combination of arguments, options and unreadable files.", "anchors": ["app/rk_fk.c:rk_fkCommandArgs", "app/rk_fk.c:rk_fkLoadSequence", "app/rk_id.c:rk_idCommandArgs", "app/rk_id.c:rk_idOpenLogfile", "app/rk_mp.c:rk_mpCommandArgs", "src/rk_chain.c:rkChainInitReadZTK"]}
{"id": "C113", "title": "No history of operations depends on the numbering of the links", "statement": "Describe the same robot twice, with the links listed in another order and the children of each link in another order. Do the same history of operations on both: set displacements, velocities or rates (also with continuity), update forward kinematics, velocities, inverse dynamics and forward dynamics, put wrenches on links and remove them, set motor inputs, do incremental forward-dynamics updates, save and restore. Both histories go through and leave every link in the same state (frame, velocity, acceleration, joint state, joint wrench, articulated inertia and bias), with the same mass and the same position, velocity and acceleration of the center of mass. All the joint vectors read back hold the same values for the same joints, and kinetic energy, angular momentum, net external wrench, zero moment point and yaw torque agree. In particular rkChainABI returns the same joint accelerations.", "quantifier": "every tree of links with joints of every type, every renumbering of the links and reordering of siblings, every state, every finite sequence of operations with arguments of the right sizes", "why_tests_cant": "robots, numberings and histories are unbounded; a test compares two descriptions of one robot after one history", "anchors": ["include/roki/rk_chain.h", "src/rk_chain.c:rkChainUpdateID", "src/rk_abi.c:rkChainABI", "src/rk_abi.c:rkChainABIUpdate", "src/rk_abi.c:rkChainABIUpdateAddExForce", "src/rk_link.c:rkLinkUpdateWrench"]}
{"id": "C114", "title": "No history of operations depends on where the robot stands", "statement": "Take a robot in any state and the same robot carried elsewhere by a rigid motion: the original frame of its base, the frames of all its links and the quantities given in the world are moved along, everything given in the axes of the links is the same. Any sequence of the operations of the API (setting displacements, velocities, rates, with or without continuity, updating forward kinematics, velocities, inverse dynamics with gravity turned along, putting and removing external wrenches, motor inputs, forward dynamics, its incremental update, saving and restoring) then goes through for both or for none, and leaves the carried robot in the carried state: the same joint displacements, velocities, accelerations, torques and energies, momentum, external wrench, center of mass and, for motions that keep the vertical, zero moment point moved along. Forward dynamics takes gravity along the vertical of the world whatever is set, so motions that keep the vertical are required as soon as it is used; a pendulum shows that this is needed. Moving the original frame of the base and updating the kinematics is what carries a robot.", "quantifier": "every well-formed chain with its mass computed and not zero, every state, every rigid motion (keeping the vertical when forward dynamics is used), every sequence of operations of any length", "why_tests_cant": "the claim ranges over all robots, all motions and all histories; a test compares a few runs and would need exact equality, which floating point does not give", "anchors": ["src/rk_chain.c: rkChainUpdateFK, rkChainUpdateID, rkChainSetJointRateAll, rkChainZMP, rkChainAM, rkChainCalcExtWrench", "src/rk_link.c: rkLinkUpdateFrame, rkLinkUpdateRate, rkLinkUpdateWrench", "src/rk_abi.c: rkChainABIUpdate, rkChainABIUpdateAddExForce, rkChainABI"]}
{"id": "C115", "title": "A link is put where the lines of its section say", "statement": "Reading a section of a link succeeds exactly when it succeeds without the lines pos, att, rot, frame and DH and the values of these lines can be read. These lines decide the original frame of the link and nothing else: starting from the identity, pos and att set its parts, rot turns the attitude, frame and DH set all of it. Several rot lines turn one after the other, about axes of the frame of the parent. The attitude read is a rotation if all given ones are. Every file has an equivalent one with only pos and att, the keys the library writes. If rot, frame or DH stands before a key that the library looks up earlier, the result depends on whether the library follows the file or its table.", "quantifier": "all sections and all files, with any number, order and repetition of the keys, all values, both orders of evaluation, and all ways in which the values of rot, frame and DH are read", "why_tests_cant": "The keys can be combined and repeated in infinitely many ways and interact with all other keys of the section; a test reads a few files.", "anchors": ["src/rk_link.c:rkLinkFromZTK", "src/rk_link.c:_rkLinkRotFromZTK", "src/rk_link.c:_rkLinkFrameFromZTK", "src/rk_link.c:_rkLinkDHFromZTK", "src/rk_chain.c:rkChainReadZTK", "src/rk_chain.c:rkChainInitReadZTK", "src/rk_chain.c:_rkChainInitFrameFromZTK"]}
{"id": "C116", "title": "The files cad2ztk would write are read back as the robot of the CSV tables", "statement": "Given a table of links (world frames in mm, masses in g) and a table of shapes, the conversion of cad2ztk, if it were reached, writes a ZTK model from which rkChainReadZTK builds the robot of the tables in metres and kilograms: same links in the same order with the same names, joint types, parents and shapes; with all joints at zero each link stands at its table frame and its mass, centre of mass and inertia in the world are the table's. The mesh conversion script has one line per shape in order, from the original to the model directory, with the shape's frame seen from its link, and writes exactly the files the model refers to. The URDF output has one link and one joint per row whose origins put each link at its table frame, except that the root joint names a parent that does not exist.", "quantifier": "all link and shape tables with distinct names, existing parents that lead to the first row, documented joint types and rotation attitudes; both orders of key evaluation; all options", "why_tests_cant": "tests cover a few robots; the property is about every table, tree and attitude, through two programs (writer and reader)", "anchors": ["app/cad2ztk.c:shape_array_output_stlconv_sh", "app/cad2ztk.c:cad2ztk_output_ztk", "app/cad2ztk.c:cad2ztk_output_urdf", "src/rk_chain.c:rkChainReadZTK", "src/rk_link.c:rkLinkFromZTK"]}
{"id": "C117", "title": "What is printed of a chain tells its tree, its posture and its loads", "statement": "rkChainConnectionFPrint prints every link of a chain once; the nearest line above with a smaller indentation is the line of the parent; two chains that print the same text have the same tree with the same names, joint types and offsets. After rkChainUpdateFK, rkChainPostureFPrint prints for each link a world frame that is the printed world frame of its parent followed by the printed frame of the link with respect to its parent. rkChainExtWrenchFPrint lists exactly the links with external wrenches, each with its wrenches.", "quantifier": "all chains whose links form a tree, of any size, depth and branching; all names without line breaks; all poses; all lists of external wrenches", "why_tests_cant": "The printing recurses over trees of any depth and branching, and that the text determines the tree is a statement on all pairs of chains.", "anchors": ["src/rk_chain.c: rkChainConnectionFPrint, rkChainPostureFPrint, rkChainExtWrenchFPrint", "src/rk_link.c: rkLinkConnectionFPrint, rkLinkPostureFPrint, rkLinkExtWrenchFPrint", "src/rk_force.c: rkWrenchFPrint"]}
{"id": "C118", "title": "Collision detection does not depend on where the scene stands", "statement": "Take any sequence of calls of the collision detector (registering and unregistering chains and pairs, setting the friction type, checking boxes, polyhedra, vertices, volumes), and the same sequence in which every link is moved by one rigid motion at every call. Both are defined and end alike: the same cells and pairs in the same order, the same collision marks, the same contact vertices with normals, projections and reference points moved by the rigid motion, the collision volumes moved, and the same counters. This is so whenever the geometric primitives of the library do not depend on where things are; of axis-aligned boxes only that they enclose is needed, since they only filter. It is not so for rkCDColChkAABB alone, whose marks depend on the orientation of the scene, nor for the axes of contact frames, which are directions but are transformed as points.", "quantifier": "all histories of calls without rkCDColChkOBBVert, all rigid motions, all chains, links, shapes and poses, all geometries without preferred positions", "why_tests_cant": "A test compares one scene with one moved copy; the statement is about every history, where marks, cached geometry and remembered contact vertices of earlier checks enter later ones.", "anchors": ["src/rk_cd.c: rkCDChainReg, rkCDColChkAABB, rkCDColChkOBB, rkCDColChkGJK, rkCDColChkVert, rkCDColVol, _rkCDVertReg, _rkCDVertNorm", "include/roki/rk_cd.h: rkCDCellDat, rkCDPairDat, rkCDVertDat"]}
{"id": "C119", "title": "The closed forms used as oracles in the library's own tests hold for all dimensions, states and motions", "statement": "(a) For a pendulum on a rotating arm with any dimensions and mass properties, after rkChainFK and rkChainID with any joint angles, rates, accelerations and gravity, whatever the state before: the position, velocity, acceleration, angular velocity and angular acceleration of the pendulum, rkChainAM about the origin, rkChainKE and the joint torques equal the textbook closed forms, and the robot remains such a pendulum for the next call. Reading the pendulum's ZTK file with any dimensions gives such a robot. (b) For a two-link planar arm with any lengths, rkLinkSetJointDis and rkLinkUpdateFrame put the tip at the closed form. (c) For any single pendulum driven by a torque motor, rkChainABIUpdate gives the acceleration (motor torque + moment of the weight) / moment of inertia about the axis, round after round.", "quantifier": "all dimensions, masses, inertias, frames, prior states, joint angles, rates, accelerations, torques and gravity", "why_tests_cant": "The tests compare the closed forms with the library at one robot and a hundred random points, up to a tolerance.", "anchors": ["test/invpend_test.c", "test/invpend.ztk", "test/scara_fk_test.c", "test/pend_abi_test.c", "test/simple_pend.ztk", "src/rk_chain.c:rkChainFK", "src/rk_chain.c:rkChainID", "src/rk_chain.c:rkChainAM", "src/rk_chain.c:rkChainKE", "src/rk_abi.c:rkChainABIUpdate"]}
{"id": "C12", "title": "Link-to-link Jacobians give relative velocity", "statement": "The link-to-link angular and linear Jacobians times the joint velocity give the angular velocity of one link relative to another, and the velocity of a point of one link as seen from the other, with the motion of common ancestors cancelling.", "quantifier": "all trees, all pairs of links, all states", "why_tests_cant": "depends on the position of the two links in the tree (same, ancestor, disjoint branches)", "anchors": ["src/rk_jacobi.c:rkChainLinkToLinkAngJacobi", "src/rk_jacobi.c:rkChainLinkToLinkLinJacobi"]}
{"id": "C120", "title": "The response of forward dynamics to forces superposes, is reciprocal and never opposes the forces", "statement": "Updating the forward dynamics of one state with no additional forces, with forces A, with forces B and with x times A plus y times B, every link acceleration, joint acceleration and joint wrench of the last run is the one without forces plus x times the change caused by A plus y times the change caused by B. The work of the forces A along the accelerations caused by B equals the work of B along the accelerations caused by A, and the work of A along the accelerations caused by A is not negative when masses, inertias and motor inertias are not. So the matrix of accelerations of contact points caused by unit contact forces, on which contact simulation relies, is well defined, symmetric and positive semidefinite.", "quantifier": "all chains, states, numbers of links and wrenches at any points, all factors x and y; reciprocity and sign for the joint types whose forward dynamics is right", "why_tests_cant": "a test compares a few points of a few robots; the matrix must be symmetric for every tree, every configuration and every pair of points, and the passes combine inertias over the whole tree", "anchors": ["src/rk_abi.c: rkChainABIUpdate, rkChainABIUpdateAddExForce", "include/roki/rk_abi.h: rkWrenchListPush on rkLinkABIPrp(l)->wlist", "src/rk_link.c: rkLinkPointAcc", "src/rk_joint_prism.c: _rkJointPrismABIAddBias", "src/rk_joint_cylin.c: _rkJointCylinABIQAcc"]}
{"id": "C121", "title": "Inverse dynamics solves Lagrange's equations", "statement": "For a chain of fixed, revolute, prismatic, cylindrical and universal joints, let L(q,v) be the kinetic energy rkChainKE reports less the potential energy of the world centers of mass, after rkChainFK(c,q) and rkChainID with velocities v. Along every motion within the joint limits, the time derivative of the derivative of L in the velocities, less the derivative of L in the displacements, is the torques rkChainID computes from the displacements, velocities and accelerations of the motion, plus the work of the external wrenches - along every direction and for every component. A motion whose torques do no work along a direction that leaves L unchanged keeps the momentum along that direction.", "quantifier": "all trees of the five joint types, mass properties with symmetric inertia, differentiable motions, directions, gravity vectors, external wrenches and times", "why_tests_cant": "It relates derivatives along arbitrary trajectories of an energy to torques computed by a recursion over an arbitrary tree; a test compares numbers at a few states of one robot and cannot differentiate.", "anchors": ["src/rk_chain.c: rkChainID, rkChainFK, rkChainKE, rkChainUpdateID", "src/rk_link.c: rkLinkUpdateRate, rkLinkUpdateWrench", "src/rk_joint_revol.c, src/rk_joint_prism.c, src/rk_joint_cylin.c, src/rk_joint_hooke.c: IncVel, IncAccOnVel, IncAcc, CalcTrq"]}
{"id": "C122", "title": "Jacobians and static torques are the derivatives of what forward kinematics computes", "statement": "For a chain of fixed, revolute, prismatic, cylindrical and universal joints whose displacements stay off the joint limits, the matrices of rkChainLinkWldLinJacobi, rkChainLinkWldAngJacobi and rkChainCOMJacobi computed after rkChainFK(q) are the derivatives, along every direction of joint displacements, of the world position of the given point of the link, of the link's attitude and of the center of mass that rkChainFK computes from the displacements. The torques that rkChainID gives for a robot at rest are the gradient of the potential energy of the posture, less the external wrenches.", "quantifier": "all such chains (any number of links, any branching), all displacements off the limits, all links and points, all directions, all gravity vectors", "why_tests_cant": "a finite difference at some postures has a truncation error and says nothing about other chains and postures", "anchors": ["src/rk_jacobi.c: rkChainLinkWldLinJacobi, rkChainLinkWldAngJacobi, rkChainCOMJacobi", "src/rk_chain.c: rkChainFK, rkChainID, rkChainUpdateCOM"]}
{"id": "C123", "title": "A short step of rkIKSolveOne reduces the error of the constraints", "statement": "After any history of calls on a solver of inverse kinematics with constraints on positions of points of links and of the center of mass, for a chain of fixed, revolute, prismatic, cylindrical and universal joints off their limits: if the joint velocities that rkIKSolveRate finds are not all zero, every step of rkIKSolveOne with a step length below some positive bound leaves the chain at a posture with a strictly smaller weighted squared error of the constraints; if they are all zero, a step of any length leaves the chain as it is. This holds for each of the three methods for the joint velocities.", "quantifier": "all histories of calls, all such chains and constraints, all weights, all postures off the limits, all short step lengths", "why_tests_cant": "a run shows one step from one posture; that the direction is downhill at every posture and for every set of constraints is a statement about derivatives of all chains", "anchors": ["src/rk_ik.c: rkIKSolveOne, rkIKSolveRate, rkIKJointVelAD, rkIKJointVelMP, rkIKJointVelSR", "src/rk_chain.c: rkChainCatJointDisAll, rkChainFK"]}
{"id": "C124", "title": "Reach and sensitivity of forward kinematics", "statement": "Whatever displacements are given to rkChainFK, no point of a link gets further from the origin than the original offsets of the links on the path from the root and the strokes that the joint limits allow add up to. The distance between two points of a link never changes. Between two sets of displacements within the limits, a point moves by no more than the sum over the joints on its path of the distances they slide and the angles they turn times the reach. Displacements that differ by full turns of angles give the same place and attitude.", "quantifier": "all chains and trees, all links, all points, all displacement vectors, in or out of the limits for the reach and for rigidity", "why_tests_cant": "A test samples displacements of one robot; the bounds hold for a continuum of displacements and for paths of every length.", "anchors": ["src/rk_chain.c:rkChainFK", "src/rk_chain.c:rkChainSetJointDisAll", "src/rk_link.c:rkLinkUpdateFrame", "src/rk_joint_revol.c", "src/rk_joint_prism.c", "src/rk_joint_cylin.c", "src/rk_joint_hooke.c"]}
{"id": "C125", "title": "Results may be written over operands", "statement": "A function that writes its result through a pointer gives the same result when the result is an operand as when it is another object, and changes no other object: rkJointXform, rkMPXform, rkMPXformInv, rkMPCombine, rkBodyCombine (also with the frame of a body as the frame), rkBodyCombineDRC, rkBodyCopyState, rkLinkPointVel, rkLinkPointAcc, rkBodyAM, rkChainAM, rkJointXformMat6D.", "quantifier": "all addresses, equal or not, all contents of all objects, all joint types and displacements, all chains", "why_tests_cant": "Tests use separate objects; which statement reads what an earlier one has overwritten depends on the joint type and on which arguments coincide.", "anchors": ["src/rk_joint_revol.c:_rkJointRevolXform", "src/rk_joint_cylin.c:_rkJointCylinXform", "src/rk_joint_fixed.c:_rkJointFixedXform", "src/rk_body.c:rkMPXform", "src/rk_body.c:rkMPCombine", "src/rk_body.c:rkBodyCombine", "src/rk_body.c:rkBodyCombineDRC", "src/rk_link.c:rkLinkPointAcc", "src/rk_chain.c:rkChainAM", "src/rk_joint.c:rkJointXformMat6D"]}
{"id": "C126", "title": "Robots used by different threads do not disturb each other; only gravity is shared", "statement": "Whatever calls are made on any number of robots, in whatever order they happen, each robot ends in the state that its own calls alone would have brought about, each made with the gravity in force at its time; no call is undefined if the calls on each robot alone are defined. So threads that each use a robot of their own and do not call rkGravitySet get the same results with every schedule. rkGravitySet is the exception: it changes the inverse dynamics of every robot of the program from then on.", "quantifier": "all families of robots, all finite sequences and interleavings of joint setting, kinematics, inverse and forward dynamics, external forces, motor inputs, saving and restoring, and gravity changes", "why_tests_cant": "the number of schedules is unbounded, and a test observes the few that the machine happens to choose", "anchors": ["src/rk_g3d.c: rk_gravity6D", "include/roki/rk_g3d.h: rkGravitySet", "include/roki/rk_chain.h: rkChainUpdateID", "src/rk_chain.c", "src/rk_abi.c"]}
{"id": "C127", "title": "Rounding errors of forward kinematics grow at most in proportion to the number of links", "statement": "If every addition and multiplication of forward kinematics is rounded with a relative error of at most v (for double 2^-53, without overflow and underflow), and the joints store values rounded likewise, then the attitude computed for a link at the end of a path of n links differs from the exact one by at most (1+13v)^(2n)-1 and its position by at most this factor times the length of the path; the world center of mass likewise. For double this is at most 52 n 2^-53, and 52 n 2^-53 times the length of the path.", "quantifier": "all chains, joint types, poses and depths, all rounding functions with a given relative error up to 1/100", "why_tests_cant": "a test measures the error at the poses it tries; the bound holds for all poses and all depths", "anchors": ["src/rk_link.c: rkLinkUpdateFrame", "src/rk_joint_revol.c: _rkJointRevolXform", "src/rk_joint_prism.c", "src/rk_joint_cylin.c", "src/rk_joint_hooke.c", "src/rk_joint_spher.c", "src/rk_joint_float.c", "src/rk_joint_brfloat.c"]}
{"id": "C128", "title": "One mechanism described by different links and joints moves the same and needs the same torques", "statement": "If two chains describe the same mechanism, where a cylindrical joint of one is a prismatic and a revolute joint in series in the other, a universal joint is two revolute joints at right angles, and a link of one is several links fixed to one another with the same total mass, moments and external forces, then with the same joint displacements, velocities and accelerations rkChainUpdateFK and rkChainUpdateID put every body in the same place with the same velocity and acceleration, and give the same joint torques. Without links fixed to the ground the total mass, the center of mass, its velocity and acceleration, the kinetic energy and the angular momentum about every point are the same as well.", "quantifier": "all pairs of chains with any number and arrangement of such replacements, of any size and branching, all mass properties, original frames, external wrenches, joint states and gravity", "why_tests_cant": "a test compares two particular robots in particular states; the replacements may be combined in any number at any place of the tree", "anchors": ["src/rk_link.c: rkLinkUpdateFrame, rkLinkUpdateRate, rkLinkUpdateWrench", "src/rk_joint_cylin.c", "src/rk_joint_hooke.c", "src/rk_joint_fixed.c", "src/rk_chain.c: rkChainUpdateFK, rkChainUpdateID, rkChainKE, rkChainAM"]}
{"id": "C129", "title": "A joint that stands still may be replaced by a fixed joint", "statement": "If some joints of a robot have zero velocity and zero acceleration and each of them is replaced by a fixed joint that holds its link where the joint held it, then forward kinematics and inverse dynamics leave the same place, velocity, acceleration and joint wrench on every link, the same state and torques in every other joint, and the same center of mass (with its velocity and acceleration), kinetic energy and angular momentum of the robot.", "quantifier": "every well-formed chain, every joint type, every set of joints at rest, every displacement, every motion of the other joints, every set of external wrenches, every gravity", "why_tests_cant": "The claim compares two different robots over all kinds of joints, all placements of the resting joints in the tree and all motions of the others; a test can only compare a few pairs.", "anchors": ["src/rk_chain.c:rkChainUpdateFK", "src/rk_chain.c:rkChainUpdateID", "src/rk_link.c:rkLinkUpdateRate", "src/rk_link.c:rkLinkUpdateWrench", "src/rk_joint_fixed.c", "src/rk_joint_hooke.c:_rkJointHookeIncAccOnVel"]}
{"id": "C13", "title": "COM Jacobian reproduces COM velocity", "statement": "The COM Jacobian times the joint velocity vector is the velocity of the total center of mass computed from the link velocities, whatever massless links the chain contains.", "quantifier": "all trees with nonzero total mass, all states", "why_tests_cant": "as above", "anchors": ["src/rk_jacobi.c:rkChainCOMJacobi", "src/rk_chain.c:rkChainCalcCOMVel"]}
{"id": "C130", "title": "Rounding errors of velocities stay bounded along the robot", "statement": "If every addition and multiplication of forward kinematics and of the velocity update is rounded with a relative error of at most v, and the stored joint values are rounded likewise, then the angular velocity computed for a link at the end of a path of n links is wrong by at most (1+13v)^(5n)-1 times the sum of the turning rates of the joints on the path, and the linear velocity (and that of the center of mass) by at most such a factor times the speed these joints could give it. In double arithmetic without overflow and underflow this is at most 130 n 2^-53.", "quantifier": "every well-formed chain of any size and depth, every joint type, every rounding function with bounded relative error, every joint displacement and velocity", "why_tests_cant": "Rounding errors accumulate over paths of any length and depend on every operand; a test can only measure the error in a few poses of a few robots.", "anchors": ["include/roki/rk_chain.h:rkChainUpdateVel", "src/rk_link.c:rkLinkUpdateVel", "src/rk_body.c:rkBodyUpdateCOMVel", "src/rk_joint_hooke.c:_rkJointHookeIncVel", "src/rk_joint_spher.c:_rkJointSpherIncVel"]}
{"id": "C131", "title": "Rounding errors of inverse dynamics stay proportional to the terms", "statement": "When every sum, difference and product of forward kinematics and inverse dynamics is rounded to floating-point precision, each joint torque, link wrench, acceleration and velocity that rkChainUpdateFK and rkChainUpdateID compute differs from the exact value by at most a factor, which grows only in proportion to the number of links and external wrenches, times the size of the terms the value is made of, that is, of the same computation done on absolute values with no cancellation.", "quantifier": "all well-formed robots with any tree of links, all joint types, states, gravity and lists of external wrenches, and all roundings of bounded relative error", "why_tests_cant": "rounding errors compound along trees of unbounded size, and a test sees only the errors of the inputs it tries", "anchors": ["src/rk_chain.c:rkChainUpdateID", "src/rk_link.c:rkLinkUpdateRate", "src/rk_link.c:rkLinkUpdateWrench", "src/rk_body.c:rkBodyNetWrench", "src/rk_force.c:rkWrenchListNet", "include/roki/rk_joint.h:rkJointCalcTrq"]}
{"id": "C132", "title": "Rounding errors of poses, center of mass, momentum and energy grow at most in proportion to the number of links", "statement": "If every floating-point operation has a relative error of at most v, then after forward kinematics and inverse dynamics the pose of every link, the center of mass of the robot with its velocity and acceleration, the angular momentum about any point and the kinetic energy differ from their exact values by at most (1+v)^k - 1 times the size of the terms they are made of, with k in proportion to the number of links; for doubles and up to 10^13 links the factor is at most 2k/2^53.", "quantifier": "every robot, posture, velocity, acceleration, gravity and reference point, and every rounding with bounded relative error", "why_tests_cant": "the worst case over all robots and all rounding patterns cannot be sampled", "anchors": ["src/rk_chain.c: rkChainCalcCOM, rkChainCalcCOMVel, rkChainCalcCOMAcc, rkChainAM, rkChainKE", "src/rk_body.c: rkBodyAM, rkBodyKE", "src/rk_link.c: rkLinkUpdateFrame"]}
{"id": "C133", "title": "A robot simulated by forward dynamics obeys the energy balance", "statement": "A program simulates a robot: at every time it hands displacements, velocities, motor inputs, friction torques and external forces to rkChainABI, and the robot moves with the accelerations returned. Then the mechanical energy of the chain (rkChainKE plus the potential energy of the masses under gravity) changes at the rate at which the motors, the friction and the external forces do work. In particular it is conserved when they do no work, and it never increases when only friction opposing the velocities acts.", "quantifier": "every chain with sound masses and inertia tensors whose joints are of the types forward dynamics treats correctly, every motion, every motor input, friction and external force as functions of time", "why_tests_cant": "A test integrates a few robots for a while and compares energies up to the error of the integrator, which hides errors of the accelerations; the balance must hold at every instant of every motion.", "anchors": ["src/rk_abi.c:rkChainABI", "src/rk_abi.c:rkChainABIUpdate", "src/rk_chain.c:rkChainKE", "include/roki/rk_chain.h:rkChainUpdateID"]}
{"id": "C134", "title": "A robot simulated by forward dynamics obeys Newton's and Euler's laws", "statement": "Along a motion that follows the accelerations returned by rkChainABI, the total linear momentum changes by the force forward dynamics reports at the root joint, the external forces and the weight, and the angular momentum rkChainAM computes about any fixed point changes by their moments. At a floating root the reported wrench is zero, so a robot in the air exchanges momentum with nothing but gravity, whatever its joints do.", "quantifier": "every chain with sound masses and inertia tensors whose joints are of the types forward dynamics treats correctly, every motion, every motor input, friction and external force as functions of time, every fixed point", "why_tests_cant": "A simulated run shows a drift of momentum for one robot and one step size; that the reported accelerations and reactions agree with the momentum of the whole robot at every instant concerns all robots and motions.", "anchors": ["src/rk_abi.c:rkChainABI", "src/rk_abi.c:rkChainABIUpdateGetWrench", "src/rk_chain.c:rkChainAM"]}
{"id": "C135", "title": "Forward dynamics does not depend on how a rigid body is divided into links", "statement": "Let two robot descriptions represent the same mechanism, where one has a single link and the other has several links fixed to one another with the same total mass, first and second moments and external forces. With fixed, revolute and floating joints, put into the same state of motion, rkChainABI gives every joint the same acceleration and every body the same acceleration in both. (With prismatic joints the code violates this: a slider on a turning crank gets different accelerations.)", "quantifier": "all pairs of chains of any size and branching that describe the same mechanism, all states of motion, all motors, friction torques, external forces and mass properties with symmetric inertia tensors", "why_tests_cant": "a test merges or splits links of one robot; the claim is about every way of dividing every mechanism and every state of motion", "anchors": ["src/rk_abi.c: rkChainABI, rkChainABIUpdate", "src/rk_joint_fixed.c: _rkJointFixedABIAddABI, _rkJointFixedABIAddBias", "src/rk_joint_revol.c: _rkJointRevolABIAddBias", "src/rk_joint_prism.c: _rkJointPrismABIAddBias"]}
{"id": "C136", "title": "The motion of a robot is the one of least constraint", "statement": "Under the joint torques that inverse dynamics computes for some joint accelerations, and from the same state, Gauss's constraint of the robot (the forces that the links need beyond those that act on them, squared and weighted by the inverse masses) is least for these joint accelerations among all joint accelerations, these torques are the only ones with this property, and if all links have mass and inertia every other joint acceleration has a larger constraint. The joint accelerations that forward dynamics computes have the least constraint under the torques of motors and friction.", "quantifier": "all chains with physical links, all joint types for inverse dynamics, all poses, velocities, accelerations, gravities, external wrenches and all competing accelerations", "why_tests_cant": "The comparison ranges over a continuum of competing accelerations for each of infinitely many chains and states.", "anchors": ["src/rk_chain.c:rkChainID", "src/rk_abi.c:rkChainABI", "src/rk_link.c:rkLinkUpdateRate", "src/rk_link.c:rkLinkUpdateWrench"]}
{"id": "C137", "title": "The inertial ellipsoid of a body", "statement": "The surface of the ellipsoid that rkMPInertiaEllips makes from mass properties is the set of the points that the inertia tensor makes of all unit vectors, laid off from the center of mass. It does not depend on which principal axes are found nor on their order and handedness, and it moves with the body when the mass properties are transformed to another frame. Its half axes are the principal moments, not the inverse square roots of them as in the textbook inertia ellipsoid, so that both agree only for the unit inertia tensor.", "quantifier": "all mass properties, all systems of principal axes and all frames", "why_tests_cant": "Principal axes are not unique when moments coincide, and the claim ranges over a continuum of tensors and points.", "anchors": ["src/rk_body.c:rkMPInertiaEllips", "include/roki/rk_body.h:rkBodyInertiaEllips"]}
{"id": "C138", "title": "Rounding errors of Jacobian matrices", "statement": "If forward kinematics and the computation of the Jacobian matrices round every operation with a relative error of at most v, then no column of the world angular Jacobian matrix of a link at the end of a path of n links is wrong by more than (1+13v)^(2n+1)-1, and no column of the world linear Jacobian matrix of a point of the link by more than (1+13v)^(4n+4)-1 times the larger of 1 and twice the length of the path plus the distance of the point from the origin of the link. In double arithmetic without overflow and underflow these are 26(2n+1) and 104(n+1) units of 2^-53. The velocity found as the product of the computed matrix and any joint velocity differs from the velocity that inverse dynamics assigns to the link by no more than this times the sum of the moduli of the joint velocity.", "quantifier": "all kinematic trees, joint kinds and values, rounding functions with bounded relative error, links, points and joint velocities", "why_tests_cant": "a test sees the rounding errors of a few postures; the bound holds for every tree, posture and rounding", "anchors": ["src/rk_jacobi.c: rkChainLinkWldAngJacobi, rkChainLinkWldLinJacobi, _rkJacobiLinCol", "src/rk_joint.c: rkJointAngAxis, rkJointLinAxis", "src/rk_link.c: rkLinkUpdateFrame"]}
{"id": "C139", "title": "Results do not depend on the units of length, mass and time", "statement": "Nothing in the interface fixes the units. Describe a robot in other units of length, mass and time, converting every stored quantity, and convert the arguments of every call: then after any sequence of rkChainSetJointDisAll, rkChainSetJointVelAll, rkChainSetJointDisCNTAll, rkChainSetJointRateAll, rkChainUpdateFK, rkChainUpdateVel, rkChainUpdateID, mass updates, external wrenches, motor inputs, forward dynamics and its additional forces the state is the converted state of the original robot, and joint values, joint torques, kinetic energy, angular momentum, center of mass, velocities and accelerations come out converted. It fails where the code compares a dimensional quantity with a fixed number (rkChainZMP, rkChainCalcExtWrench), and rkChainYawTorque changes like a force, not like a torque. Forward dynamics (rkChainABI) agrees only while the acceleration of gravity has the same number in both systems, since it is built in; and not for prismatic joints on moving links, whose formula lacks a division by a mass.", "quantifier": "every chain of every shape with joints of all eight types, every positive change of units, every sequence of calls with any arguments, including those with undefined behaviour", "why_tests_cant": "A test fixes one robot, one system of units and one sequence of calls; a formula with a wrong dimension agrees with the right one in the units of the test (for instance when a length is 1).", "anchors": ["src/rk_chain.c: rkChainUpdateFK, rkChainUpdateID, rkChainSetJointDisCNTAll, rkChainZMP, rkChainYawTorque, rkChainCalcExtWrench, rkChainKE, rkChainAM", "src/rk_link.c: rkLinkUpdateFrame, rkLinkUpdateRate, rkLinkUpdateWrench", "src/rk_body.c: rkMPgmm2kgm, rkMPCombine, rkMPXform", "src/rk_joint_*.c", "src/rk_abi.c: rkChainABI, rkChainABIUpdate, rkChainABIUpdateAddExForce", "src/rk_joint_prism.c", "src/rk_motor_dc.c, src/rk_motor_trq.c"]}
{"id": "C14", "title": "Angular momentum Jacobian reproduces angular momentum", "statement": "The angular momentum Jacobian about any point times the joint velocity vector is the total angular momentum about that point computed from link velocities.", "quantifier": "all trees, all reference points, all states", "why_tests_cant": "as above", "anchors": ["src/rk_jacobi.c:rkChainAMJacobi", "src/rk_jacobi.c:rkChainLinkAMJacobi", "src/rk_chain.c:rkChainAM"]}
{"id": "C140", "title": "The mirror image of a robot does the mirror image of its motion", "statement": "If a robot is replaced by its mirror image in the x-z plane (positions, attitudes, mass properties, joint limits, motors and their limits), then after every sequence of settings of the joints and of the motors, external wrenches, updates of kinematics, velocities, inverse dynamics and forward dynamics, additional forces with their incremental update, savings and restorations, with the arguments seen in the mirror, its state is the mirror image of the state of the original robot, and so is everything that it reports: joint displacements, velocities, accelerations and torques, energy, angular momentum, external wrench, center of mass, zero moment point and all Jacobian matrices. Hence a symmetric robot in symmetric motion keeps its center of mass and its zero moment point in the plane of symmetry. The yaw torque is not mirrored, and a joint set to an exact half turn is not either.", "quantifier": "every robot with every type of joint and motor, every sequence of calls, every argument (settings of displacements: not an exact half turn; settings with continuity: no spherical or floating joint; limits of turns and motors in order), every point", "why_tests_cant": "A test compares one robot with one mirrored description in one motion; a sign error in one of the joint types, in one of the axial vectors or in one of the matrices shows only for the joint type, the axis and the motion that reach it.", "anchors": ["src/rk_chain.c: rkChainUpdateFK, rkChainUpdateVel, rkChainUpdateID, rkChainZMP, rkChainYawTorque", "src/rk_abi.c: rkChainABIUpdate, rkChainABIUpdateAddExForce", "src/rk_motor.c, src/rk_motor_dc.c, src/rk_motor_trq.c", "src/rk_joint_revol.c, src/rk_joint_hooke.c, src/rk_joint_spher.c, src/rk_joint_float.c: SetDis, Xform, IncVel, IncAccOnVel, CalcTrq, ABI functions", "src/rk_jacobi.c"]}
{"id": "C141", "title": "A uniform motion of a floating robot changes neither forces nor accelerations", "statement": "Let the root of a robot float. Adding one velocity v to the translational velocity of the root adds the same velocity V (v seen from the world) to every point of every link and to the centre of mass, and changes no angular velocity. rkChainKE, rkChainAM and the momentum change as in a change of the inertial frame. rkChainABI reports the same joint accelerations, or fails in the same cases, and the state it leaves differs only by that velocity. rkChainID asks for the same joint forces and finds the same accelerations.", "quantifier": "every well-formed robot with a floating (or breakable floating) root and any tree of links and joints, every pose, every joint velocity, every additional velocity, every gravity, external wrench, motor and break state", "why_tests_cant": "It relates pairs of runs over all robots, states and velocities; a test compares a few motions, usually with a root that does not spin, where the violated case cannot be seen.", "anchors": ["src/rk_abi.c: rkChainABI, rkLinkABIUpdateInit, rkLinkABIUpdateBackward, rkLinkABIUpdateForward", "src/rk_chain.c: rkChainID, rkChainUpdateRate, rkChainKE, rkChainAM, rkChainCalcCOMVel", "src/rk_joint_float.c: _rkJointFloatIncVel, _rkJointFloatIncAccOnVel", "src/rk_joint_brfloat.c", "src/rk_link.c: rkLinkUpdateVel, rkLinkUpdateAcc"]}
{"id": "C142", "title": "A motion played backward needs the same forces", "statement": "If all velocities of a robot change their signs and everything else is kept, inverse dynamics asks for the same joint forces and reports the same accelerations of all links, forward dynamics reports the same joint accelerations (or fails in the same cases), the kinetic energy is the same, and the velocities of the links, the angular momentum and the velocity of the centre of mass change their signs. It stays so through every history of calls that set displacements and velocities, load, drive and update the robot, when a step of time is replaced by a step backward. Motors of direct current are excepted: they brake, and the law holds for a motor that pushes instead.", "quantifier": "for all robots of any shape and size with all kinds of joints, all states of motion, all additional forces and all histories of calls", "why_tests_cant": "A test compares one motion with its reverse; the law says that no force the library computes has a part that is proportional to the velocity, in any joint type, at any depth of the tree and in any history.", "anchors": ["src/rk_chain.c: rkChainID, rkChainUpdateID, rkChainUpdateVel, rkChainKE, rkChainAM", "src/rk_abi.c: rkChainABI, rkChainABIUpdate", "src/rk_joint_hooke.c, src/rk_joint_float.c, src/rk_joint_spher.c: IncAccOnVel", "src/rk_motor_dc.c: _rkMotorDCRegistance", "include/roki/rk_body.h: rkBodyKE, rkBodyAM"]}
{"id": "C143", "title": "Velocities enter the joint torques by a quadratic form", "statement": "At every pose there are numbers, symmetric in two joint components, such that the joint torques that inverse dynamics reports for any joint velocities are those for zero velocities plus these numbers times the products of two joint velocities, whatever the gravity, the joint accelerations and the external wrenches are. The numbers (Coriolis and centrifugal coefficients) are obtained by calls of inverse dynamics at that pose with one or two unit velocities, without gravity and accelerations. For joints whose displacements are coordinates, these torques follow from the way the kinetic energy the library reports depends on the pose: their work on a direction u is the derivative, along the velocities v, of the inertia between v and u, less the derivative, along u, of the kinetic energy for v (Christoffel symbols); in particular, their power is the rate of change of the kinetic energy of a motion with constant joint velocities.", "quantifier": "for all robots of any shape and size with all kinds of joints, all poses, joint velocities, joint accelerations, gravities and external wrenches", "why_tests_cant": "A controller that tabulates the coefficients relies on the form for all velocities together; tests compare single motions, and a term that is linear in the velocities, or that couples velocities with gravity or with a load, shows only in some of them.", "anchors": ["src/rk_chain.c: rkChainID, rkChainUpdateID", "src/rk_link.c: rkLinkUpdateVel, rkLinkUpdateAcc, rkLinkUpdateWrench", "src/rk_joint_*.c: IncAccOnVel", "src/rk_body.c: rkBodyNetWrench"]}
{"id": "C144", "title": "A joint reports its motor consistently", "statement": "For every joint type and motor, rkJointMotorInputTrq, rkJointMotorRegistance and rkJointMotorDrivingTrq fill exactly as many elements as the joint has components (rkJointMotorInertia the square of that) and leave the rest of the buffer alone. The driving torque is input torque less resistance less inertia times acceleration. Only the first component is driven. Commanding the motor changes the input torque only. The resistance never does positive work on the joint when the admittance is not negative. After forward dynamics, inverse dynamics reports driving torque plus friction in each component.", "quantifier": "every joint of every type, every motor with any constants, every velocity, acceleration and command, every content and length of the caller's buffers; for the last part every chain whose joint types forward dynamics handles", "why_tests_cant": "A test checks one motor on one joint with one buffer; a missed zeroing shows only with dirty buffers and joints of more components, and the balance must hold for all motor constants and motions.", "anchors": ["include/roki/rk_joint.h:rkJointMotorInertia", "include/roki/rk_joint.h:rkJointMotorInputTrq", "include/roki/rk_joint.h:rkJointMotorRegistance", "include/roki/rk_joint.h:rkJointMotorDrivingTrq", "src/rk_joint_hooke.c:_rkJointHookeMotorDrivingTrq", "src/rk_joint_spher.c:_rkJointSpherMotorInertia", "src/rk_motor_dc.c:_rkMotorDCDrivingTrq"]}
{"id": "C15", "title": "Total center of mass is the mass-weighted mean", "statement": "rkChainCalcCOM, rkChainCalcCOMVel and rkChainCalcCOMAcc give the mass-weighted mean of the link COM positions, velocities and accelerations; the result lies in the convex hull of link COMs when masses are nonnegative and not all zero.", "quantifier": "all chains with nonzero total mass, all poses", "why_tests_cant": "unbounded number of links", "anchors": ["src/rk_chain.c:rkChainCalcMass", "src/rk_chain.c:rkChainCalcCOM", "src/rk_chain.c:rkChainCalcCOMVel", "src/rk_chain.c:rkChainCalcCOMAcc"]}
{"id": "C16", "title": "Combining mass properties preserves total mass, first and second moments", "statement": "rkMPCombine gives the mass properties of the union: mass and first moment add, and the inertia about any point is the sum of the two inertias about that point; hence it is commutative and associative.", "quantifier": "all mass properties with nonzero total mass, all frames, all reference points", "why_tests_cant": "algebraic law over all reals", "anchors": ["src/rk_body.c:rkMPCombine", "src/rk_body.c:rkMPShiftInertia", "src/rk_body.c:rkBodyCombine"]}
{"id": "C17", "title": "Mass property transformation is invertible", "statement": "rkMPXform followed by rkMPXformInv with the same frame is the identity (and conversely); mass is unchanged, inertia stays symmetric, and composition of frames corresponds to composition of transformations.", "quantifier": "all mass properties, all frames with a rotation attitude", "why_tests_cant": "algebraic law over all reals", "anchors": ["src/rk_body.c:rkMPXform", "src/rk_body.c:rkMPXformInv"]}
{"id": "C18", "title": "Inverse dynamics root wrench balances the whole chain", "statement": "After rkChainUpdateID the wrench transmitted at the root is the sum over all links of inertial wrench minus external wrench, transferred to the root; in particular the net force in the world equals the sum of mass times COM acceleration minus the external forces.", "quantifier": "all trees, all states, all external wrench lists", "why_tests_cant": "induction over trees of unbounded size", "anchors": ["src/rk_link.c:rkLinkUpdateWrench", "src/rk_body.c:rkBodyNetWrench", "src/rk_chain.c:rkChainUpdateID"]}
{"id": "C19", "title": "Joint torques satisfy the power balance", "statement": "The sum over all joints of torque times joint velocity computed by inverse dynamics equals the sum over all links of (inertial wrench - external wrench) times link twist: constraint forces do no work.", "quantifier": "all trees, all joint types, all states", "why_tests_cant": "holds only if every joint type's torque projection is dual to its velocity map", "anchors": ["src/rk_link.c:rkLinkUpdateWrench", "src/rk_joint_revol.c:_rkJointRevolCalcTrq", "src/rk_joint_spher.c:_rkJointSpherCalcTrq", "src/rk_joint_float.c:_rkJointFloatCalcTrq"]}
{"id": "C20", "title": "ZMP has the requested height and no tipping moment", "statement": "When rkChainZMP succeeds, the point returned has the requested height and the moment of the root reaction about it is vertical.", "quantifier": "all root frames with a rotation attitude, all root wrenches with nonzero vertical force, all heights", "why_tests_cant": "holds for a continuum of wrenches and root attitudes", "anchors": ["src/rk_chain.c:rkChainZMP"]}
{"id": "C21", "title": "Yaw torque is the vertical moment at the ZMP", "statement": "rkChainYawTorque is the vertical component of the root reaction moment about the ZMP.", "quantifier": "all root frames and wrenches with nonzero vertical force", "why_tests_cant": "agrees with the correct value on the special wrenches a test would use", "anchors": ["src/rk_chain.c:rkChainYawTorque"]}
{"id": "C22", "title": "Kinetic energy is nonnegative and frame independent", "statement": "rkChainKE is the sum of translational and rotational energies of the links; it is nonnegative when masses are nonnegative and inertias positive semidefinite, and equals the world-frame expression.", "quantifier": "all chains and states", "why_tests_cant": "continuum of states", "anchors": ["src/rk_body.c:rkBodyKE", "src/rk_chain.c:rkChainKE"]}
{"id": "C23", "title": "Angular momentum transfers between reference points", "statement": "rkChainAM about p equals rkChainAM about q plus (q-p) cross the total linear momentum.", "quantifier": "all chains, states and pairs of points", "why_tests_cant": "continuum of points and states", "anchors": ["src/rk_chain.c:rkChainAM", "src/rk_body.c:rkBodyAM"]}
{"id": "C24", "title": "External wrench summary equals the sum of pushed wrenches", "statement": "rkChainCalcExtWrench returns the sum over all links of their external wrenches transferred to the world origin, up to the wrenches it deliberately skips as negligible.", "quantifier": "all chains and wrench lists", "why_tests_cant": "unbounded lists", "anchors": ["src/rk_chain.c:rkChainCalcExtWrench", "src/rk_force.c:rkWrenchListNet"]}
{"id": "C25", "title": "Wrench list is a stack whose net is order independent", "statement": "Push then pop returns the pushed wrench and restores the list; popping an empty list returns nothing; the net wrench is the sum of wrenches shifted to the origin and does not depend on the order.", "quantifier": "all wrench lists and push/pop histories", "why_tests_cant": "all histories", "anchors": ["src/rk_force.h:rkWrenchListPush", "src/rk_force.c:rkWrenchXform", "src/rk_force.c:rkWrenchListNet"]}
{"id": "C26", "title": "Forward dynamics inverts inverse dynamics", "statement": "Joint accelerations computed by rkChainABI satisfy the equations of motion: feeding them to inverse dynamics reproduces the joint torques, motor and resistance included.", "quantifier": "all trees, all joint types, all states and input torques for which no joint-space inertia is singular", "why_tests_cant": "the code has per-joint-type formulas whose errors cancel at rest or for a single joint", "anchors": ["src/rk_abi.c:rkChainABIUpdate", "src/rk_abi.c:rkLinkABIUpdateBackward", "src/rk_abi.c:rkLinkABIUpdateForward", "src/rk_joint_revol.c:_rkJointRevolABIAddABI", "src/rk_joint_prism.c:_rkJointPrismABIAddBias", "src/rk_joint_cylin.c:_rkJointCylinABIAddABI"]}
{"id": "C27", "title": "Incremental external force update equals full recomputation", "statement": "rkChainABIUpdateAddExForce after a force-free pass gives the same accelerations as a complete pass with the force in the link's wrench list.", "quantifier": "all trees, all links, all wrenches, any history of earlier calls", "why_tests_cant": "depends on the position of the link in the tree and on earlier calls", "anchors": ["src/rk_abi.c:rkChainABIUpdateAddExForce", "src/rk_abi.c:rkChainABIUpdateAddExForceTwo", "src/rk_abi.c:rkLinkABIUpdateBackward"]}
{"id": "C28", "title": "Saved acceleration biases are restored", "statement": "After rkChainABIPopPrpAccBias the biases and accelerations are those at the time of the matching push, and after the two-link update both links' wrench lists are what they were.", "quantifier": "all trees and link pairs", "why_tests_cant": "all histories", "anchors": ["src/rk_abi.c:rkChainABIPushPrpAccBias", "src/rk_abi.c:rkChainABIPopPrpAccBias", "src/rk_abi.c:rkChainABIUpdateAddExForceTwo"]}
{"id": "C29", "title": "Forward and inverse dynamics use the same gravity", "statement": "After the gravity vector is changed with rkGravitySet, forward dynamics and inverse dynamics use the same gravity.", "quantifier": "all gravity vectors, all chains", "why_tests_cant": "only visible with non-default gravity", "anchors": ["src/rk_g3d.c:rk_gravity6D", "src/rk_abi.c:_rkLinkABIUpdateInit", "src/rk_chain.c:rkChainUpdateID"]}
{"id": "C30", "title": "A cloned chain behaves like the original", "statement": "rkChainClone yields a chain with the same tree structure, link data and joint behaviour (limits, friction, stiffness) and shares no mutable link with the original; cloning an empty chain fails.", "quantifier": "all chains, all subsequent operations", "why_tests_cant": "all subsequent operations", "anchors": ["src/rk_chain.c:rkChainClone", "src/rk_link.c:rkLinkClone", "src/rk_joint.c:rkJointClone", "src/rk_body.c:rkBodyClone"]}
{"id": "C31", "title": "Friction pivot is remembered", "statement": "After rkJointSetFrictionPivot, rkJointGetFrictionPivot returns the same pivots.", "quantifier": "all joint types with friction, all pivots", "why_tests_cant": "holds for one joint type and not others; all pivot values", "anchors": ["src/rk_joint_revol.c:_rkJointRevolSetFrictionPivot", "src/rk_joint_prism.c:_rkJointPrismSetFrictionPivot", "src/rk_joint_cylin.c:_rkJointCylinSetFrictionPivot", "src/rk_joint_hooke.c:_rkJointHookeSetFrictionPivot"]}
{"id": "C32", "title": "Passive joint friction dissipates energy", "statement": "With nonnegative viscosity and Coulomb coefficients, the resistance torque of a joint apart from its spring term never does positive work.", "quantifier": "all coefficients and joint states", "why_tests_cant": "continuum", "anchors": ["include/roki/rk_joint.h:rkJointRestTrq", "src/rk_joint_revol.c:_rkJointRevolGetKFriction"]}
{"id": "C33", "title": "A breakable joint breaks alone", "statement": "A breakable joint stays rigid until the transmitted force or torque exceeds its threshold, then becomes free, and no other joint is affected.", "quantifier": "all chains with several breakable joints, all load histories", "why_tests_cant": "history dependent and involves other joints", "anchors": ["src/rk_joint_brfloat.c:_rkJointBrFloatUpdateWrench", "src/rk_joint_brfloat.c:_rkJointBrFloatABIAddABI"]}
{"id": "C34", "title": "Joint and motor types are found by name", "statement": "rkJointQueryAssign and rkMotorQueryAssign select exactly the type with the given name, reject unknown names, and the assigned joint starts in the neutral state with the size of its type.", "quantifier": "all strings", "why_tests_cant": "all strings", "anchors": ["src/rk_joint.c:rkJointQueryAssign", "src/rk_joint.c:rkJointAssign", "src/rk_motor.c:rkMotorQueryAssign"]}
{"id": "C35", "title": "Motor input is limited and driving torque follows the motor model", "statement": "The input stored in a DC or torque motor is within its limits for any command; DC driving torque equals amplification of the stored input minus back-EMF resistance minus rotor inertia times acceleration; with nonnegative parameters the back-EMF term never does positive work.", "quantifier": "all motor parameters, inputs, states", "why_tests_cant": "continuum", "anchors": ["src/rk_motor_dc.c:_rkMotorDCSetInput", "src/rk_motor_dc.c:_rkMotorDCDrivingTrq", "src/rk_motor_trq.c:_rkMotorTrqSetInput"]}
{"id": "C36", "title": "IK cell identifiers are unique and retrievable", "statement": "After any sequence of constraint registrations and unregistrations, registered constraints have pairwise distinct identifiers, lookup by identifier returns exactly the constraint registered with it, and a new registration takes the least identifier not in use.", "quantifier": "all registration histories", "why_tests_cant": "all histories", "anchors": ["src/rk_ik.c:rkIKCellReg", "src/rk_ik.c:rkIKCellUnreg", "src/rk_ik.c:rkIKFindCell"]}
{"id": "C37", "title": "IK joint index reflects the registered joints", "statement": "After any sequence of joint registrations and unregistrations, the solver's joint index lists exactly the registered joints in link order with consecutive offsets, and weights follow.", "quantifier": "all histories on all chains", "why_tests_cant": "fails only when the last joint is unregistered", "anchors": ["src/rk_ik.c:rkIKJointReg", "src/rk_ik.c:rkIKJointUnreg", "src/rk_ik.c:_rkIKAllocJointIndex"]}
{"id": "C38", "title": "IK moves only registered joints", "statement": "A solver step changes the displacement of registered joints only.", "quantifier": "all histories, chains, references", "why_tests_cant": "history dependent", "anchors": ["src/rk_ik.c:rkIKSolveOne", "src/rk_ik.c:rkIKSolveRate"]}
{"id": "C39", "title": "IK solver terminates and reports convergence faithfully", "statement": "rkIKSolve stops within the iteration limit, returns the iteration at which the change of the evaluation fell within the tolerance, and -1 exactly when this never happened.", "quantifier": "all tolerances, limits and evaluation sequences", "why_tests_cant": "all sequences", "anchors": ["src/rk_ik.c:rkIKSolve"]}
{"id": "C40", "title": "IK equation rows are the enabled axes of active cells", "statement": "The constraint equation has one row per enabled axis of enabled cells, in cell order, with the Jacobian restricted to registered joints and the motion of the unregistered joints moved to the right-hand side.", "quantifier": "all cell lists and attributes, all chains", "why_tests_cant": "all combinations of modes", "anchors": ["src/rk_ik.c:_rkIKCellEq", "src/rk_ik.c:_rkIKEq", "src/rk_ik.c:_rkIKAllocSRV"]}
{"id": "C41", "title": "Binding constraints to the current state zeroes their error", "statement": "After rkIKBind every registered constraint is switched on, its reference is the current value of the quantity it constrains, and its error is zero, so that rkIKEq reports the error zero.", "quantifier": "all chains, all histories of calls on the solver, all kinds of constraints", "why_tests_cant": "continuum, per cell kind", "anchors": ["src/rk_ik.c:rkIKBind", "src/rk_ik_cell.c:rkIKBindLinkWldPos", "src/rk_ik_cell.c:rkIKLinkWldPosErr", "src/rk_ik_cell.c:rkIKBindLinkL2LAtt", "src/rk_ik_cell.c:rkIKBindAM", "src/rk_ik_cell.c:rkIKAMErr"]}
{"id": "C42", "title": "IK sequences survive printing and scanning", "statement": "Printing an IK sequence and scanning the output gives the same sequence: the steps and entries in the same order, with the same identifiers, weights and references.", "quantifier": "all sequences", "why_tests_cant": "all sequences", "anchors": ["src/rk_ik_seq.c:rkIKSeqFPrint", "src/rk_ik_seq.c:rkIKSeqFScan"]}
{"id": "C43", "title": "Collision pairs are well formed", "statement": "After any sequence of chain registrations, pair registrations and unregistrations, every pair consists of two distinct registered cells on different links, not both static, and no pair appears twice.", "quantifier": "all histories", "why_tests_cant": "all histories", "anchors": ["src/rk_cd.c:rkCDChainReg", "src/rk_cd.c:_rkCDPairCellReg", "src/rk_cd.c:rkCDPairReg", "src/rk_cd.c:rkCDPairUnreg", "src/rk_cd.c:rkCDPairChainUnreg"]}
{"id": "C44", "title": "Unregistering a chain leaves no dangling reference", "statement": "After rkCDChainUnreg no cell or pair refers to the chain, and cells and pairs of the other chains are unchanged.", "quantifier": "all histories and chains", "why_tests_cant": "all histories", "anchors": ["src/rk_cd.c:rkCDChainUnreg", "src/rk_cd.c:rkCDPairChainUnreg"]}
{"id": "C45", "title": "Broad phase never loses a collision", "statement": "With conservative bounding boxes, the staged check (axis-aligned box, oriented box, GJK) marks exactly the same pairs as GJK alone, resets stale results, and its result does not depend on the order of pairs.", "quantifier": "all pair lists, geometry and earlier results", "why_tests_cant": "all histories and geometries", "anchors": ["src/rk_cd.c:rkCDColChkAABB", "src/rk_cd.c:rkCDColChkOBB", "src/rk_cd.c:rkCDColChkGJK", "src/rk_cd.c:rkCDColChkGJKOnly"]}
{"id": "C46", "title": "Collision queries leave shapes unchanged", "statement": "Running a collision query does not change the shapes later queries see.", "quantifier": "all sequences of queries", "why_tests_cant": "needs a later query of a different kind", "anchors": ["src/rk_cd.c:rkCDColChkOBBVert"]}
{"id": "C47", "title": "Plane truncation handles every face configuration", "statement": "Truncating a boundary representation by a plane classifies each triangle by the signs of its three vertices; every sign combination is handled, faces beyond the plane are discarded, faces beneath are kept, and cut faces are replaced by triangles lying beneath the plane and covering the beneath part of the face.", "quantifier": "all triangles and planes", "why_tests_cant": "27 sign patterns times a continuum of positions", "anchors": ["src/rk_cd_brep_trunc.c:_rkBREPTruncFace", "src/rk_cd_brep_trunc.c:_rkBREPTruncFaceA", "src/rk_cd_brep_trunc.c:_rkBREPTruncFaceV", "src/rk_cd_brep_trunc.c:_rkBREPTruncFaceE", "src/rk_cd_brep_trunc.c:_rkBREPTruncIntersect"]}
{"id": "C48", "title": "Polyhedron to boundary representation conversion shares vertices and edges", "statement": "Converting a polyhedron registers each vertex and each undirected edge once, and each face with its own three vertices and edges.", "quantifier": "all polyhedra", "why_tests_cant": "unbounded meshes", "anchors": ["src/rk_cd_brep.c:rkPH3D2BREP", "src/rk_cd_brep.c:rkBREPEdgeListFind", "src/rk_cd_brep.c:rkBREPVertListFind"]}
{"id": "C49", "title": "Contact property lookup is symmetric and first match", "statement": "rkContactInfoArrayAssoc gives the first entry whose two keys match the query in either order, independent of the order of the query, and nothing when there is none; the typed lookup returns only entries of the requested type.", "quantifier": "all arrays and key pairs", "why_tests_cant": "all strings and array sizes", "anchors": ["src/rk_contact.c:rkContactInfoAssoc", "src/rk_contact.c:rkContactInfoArrayAssoc", "src/rk_contact.c:rkContactInfoArrayAssocType"]}
{"id": "C50", "title": "Link tree construction yields a forest visited once", "statement": "After any sequence of rkLinkAddChild calls each attaching a link that has no parent and is not an ancestor of the new parent, the links form a forest with consistent parent, child and sibling pointers, children in order of attachment, and recursive traversal from a root visits each of its descendants exactly once.", "quantifier": "all construction sequences of any length", "why_tests_cant": "all histories", "anchors": ["src/rk_link.c:rkLinkAddChild", "src/rk_link.c:rkLinkAddSibl"]}
{"id": "C51", "title": "Composite mass properties of selected links", "statement": "The rk_mp tool gives the mass, center of mass and inertia about the center of mass of the union of the selected links, whatever the order of selection.", "quantifier": "all chains, poses and selections", "why_tests_cant": "unbounded selections", "anchors": ["app/rk_mp.c:rk_mpCalc", "app/rk_mp.c:rk_mpShiftInertia"]}
{"id": "C52", "title": "URDF conversion preserves the robot", "statement": "urdf2ztk re-aligns joint frames while preserving the world poses of links' shapes and mass properties, with each revolute or prismatic joint axis becoming the z axis of its link frame.", "quantifier": "all URDF trees", "why_tests_cant": "unbounded trees", "anchors": ["app/urdf2ztk.c:urdf2ztk_correct_frame", "app/urdf2ztk.c:urdf2ztk_xform", "app/urdf2ztk.c:urdf2ztk_xform_inv"]}
{"id": "C53", "title": "CAD conversion tool converts", "statement": "cad2ztk run with a model name and readable CSV files writes the model file.", "quantifier": "all command lines", "why_tests_cant": "control flow property of all command lines", "anchors": ["app/cad2ztk.c:main", "app/cad2ztk.c:cad2ztk_how_to_use"]}
{"id": "C54", "title": "Joint torsion decomposition is exact", "statement": "rkJointTorsion splits any relative frame into a joint displacement and a residual torsion such that applying the torsion and then the joint transformation reproduces the frame.", "quantifier": "all relative frames and joint types", "why_tests_cant": "holds on one side of a branch only", "anchors": ["src/rk_joint.c:rkJointRevolTorsionDis", "src/rk_joint_revol.c:_rkJointRevolTorsion", "src/rk_joint_hooke.c:_rkJointHookeTorsion"]}
{"id": "C55", "title": "Spatial inertia transfer matches rigid-body physics", "statement": "The articulated inertia initialised for a link applied to a twist gives the link's momentum about its origin, and transferring inertia between frames preserves symmetry and the kinetic energy form.", "quantifier": "all mass properties, twists and frames", "why_tests_cant": "continuum", "anchors": ["src/rk_abi.c:rkLinkABIInitInertia", "src/rk_joint.c:rkJointXformMat6D"]}
{"id": "C56", "title": "Recording and restoring a configuration is lossless", "statement": "Giving the configuration read by rkChainGetConf from a chain (after forward kinematics) to rkChainSetConf on a chain built from the same model and then running forward kinematics restores the world frames of all links, and the displacements of the joints with at most two degrees of freedom.", "quantifier": "all chains, all tree shapes, all joint types and displacements", "why_tests_cant": "depends on the whole tree and on angles beyond particular quadrants", "anchors": ["src/rk_chain.c:rkChainGetConf", "src/rk_chain.c:rkChainSetConf", "src/rk_link.c:rkLinkConfToJointDis", "src/rk_joint.c:rkJointTorsion"]}
{"id": "C57", "title": "Repeating the incremental force update changes nothing", "statement": "After a forward-dynamics update without additional forces, calling the incremental update for a given set of additional external forces again with the same forces gives the same motion and joint wrenches as calling it once.", "quantifier": "every kinematic chain, every state, every set of additional forces and every number of repetitions", "why_tests_cant": "the answer depends on which links carry forces and on how often the update was called before; every combination of tree, forces and call history has to agree", "anchors": ["src/rk_abi.c rkChainABIUpdateAddExForce", "src/rk_abi.c _rkLinkABIUpdateBackwardAddExForce", "src/rk_abi.c rkChainABIPushPrpAccBias", "src/rk_abi.c rkChainABIPopPrpAccBias"]}
{"id": "C58", "title": "The default inverse kinematics method computes the damped weighted optimum", "statement": "The joint velocities computed by the default method (rkIKJointVelAD) are the unique minimum of the squared error of the constraint equation, weighted by the weights of the constraints, plus the squared velocities of the registered joints, each weighted by the weight of its joint plus the squared weighted error. With positive joint weights the method never fails, and it gives the velocity zero when all constraints are met.", "quantifier": "all constraint equations, all nonnegative constraint weights, all positive joint weights, all histories of calls", "why_tests_cant": "optimality over a continuum of velocities, for all matrices of all sizes, singular ones included", "anchors": ["src/rk_ik.c:rkIKJointVelAD", "src/rk_ik.c:rkIKSolveRate", "src/rk_ik.c:rkIKEq"]}
{"id": "C59", "title": "A step of an IK sequence addresses exactly the constraints it names", "statement": "rkIKSeqCellSet sets the weight and the reference of every constraint whose identifier occurs in the step, and switches it on; later entries override earlier ones; unknown identifiers, other constraints and everything else in the solver stay as they are.", "quantifier": "all histories of calls on the solver, all steps", "why_tests_cant": "all histories of registration and all steps, with repeated and unknown identifiers", "anchors": ["src/rk_ik_seq.c:rkIKSeqCellSet", "src/rk_ik.c:rkIKFindCell"]}
{"id": "C60", "title": "Registering and unregistering a pair of links", "statement": "rkCDPairReg watches every pair of shapes of the two links and nothing else changes; registering the same pair again changes nothing; rkCDPairUnreg and rkCDPairChainUnreg stop watching exactly the pairs of those links or chain.", "quantifier": "all histories of registrations and queries, all pairs of links", "why_tests_cant": "which pairs are watched depends on the whole history of registrations", "anchors": ["src/rk_cd.c:rkCDPairReg", "src/rk_cd.c:rkCDPairUnreg", "src/rk_cd.c:rkCDPairChainUnreg"]}
{"id": "C61", "title": "Contact vertices persist in the frame of the other link", "statement": "rkCDColChkVert lists exactly the vertices of either cell inside the other, each once. A vertex that stays in contact keeps its reference point, normal, contact axes and kind of friction relative to the other link; the world values agree with those at the present pose; its projection point stays in the plane through the reference point orthogonal to the normal.", "quantifier": "all histories of registrations and queries, all poses", "why_tests_cant": "the state of a contact vertex depends on all earlier checks and poses", "anchors": ["src/rk_cd.c:rkCDColChkVert", "src/rk_cd.c:_rkCDPairVertReg", "src/rk_cd.c:_rkCDPairVert"]}
{"id": "C62", "title": "The collision count is the number of collisions found", "statement": "After each collision query, colnum is the number of pairs the query marks as colliding.", "quantifier": "all histories of registrations and queries, all poses and geometric routines", "why_tests_cant": "depends on the history of queries and on all combinations of the results of the stages", "anchors": ["src/rk_cd.c:rkCDColChkAABB", "src/rk_cd.c:rkCDColChkGJK", "src/rk_cd.c:rkCDColChkOBBVert", "src/rk_cd.c:rkCDColVol"]}
{"id": "C63", "title": "Contact property files are read faithfully", "statement": "Reading a contact property file gives one entry per section, in order, with the keys and the parameters that the section gives, and warns about exactly the pairs of keys that occurred before in either order; printing an array and reading it back gives the same entries up to the printed digits; writing uses the given file name.", "quantifier": "all files, arrays and names", "why_tests_cant": "any number and order of sections and lines", "anchors": ["src/rk_contact.c:rkContactInfoArrayFromZTK", "src/rk_contact.c:rkContactInfoArrayFPrintZTK", "src/rk_contact.c:rkContactInfoArrayWriteZTK"]}
{"id": "C64", "title": "CAD conversion preserves poses, mass properties and attachment", "statement": "From a link table whose names are unique and whose parents exist and a shape table, cad2ztk writes one section per link with the same name and joint type, the named parent, the shapes attached to it, mass properties that moved back to the world equal the given ones in kilograms and metres, and a frame such that the frames compose along the parents to the given world frame in metres; the URDF output refers only to links it contains; bad tables are refused.", "quantifier": "all link and shape tables", "why_tests_cant": "tables of any size and order, any poses", "anchors": ["app/cad2ztk.c:cad2ztk_output_ztk_link", "app/cad2ztk.c:cad2ztk_output_urdf_joint", "app/cad2ztk.c:link_array_assoc_parent", "app/cad2ztk.c:shape_array_read_csv"]}
{"id": "C65", "title": "Displacement vectors add and subtract joint by joint", "statement": "Concatenating k times a rate vector to a joint displacement vector adds k times the rate to every angle and length and composes every rotation with the rotation of k times its rate; subtracting two displacement vectors gives the differences of angles and lengths and the relative rotations; adding the difference back restores the displacement. Components of other joints are never touched.", "quantifier": "all chains, joint types, displacement and rate vectors and factors", "why_tests_cant": "any number, order and type of joints and all real values", "anchors": ["src/rk_chain.c:rkChainCatJointDisAll", "src/rk_chain.c:rkChainSubJointDisAll", "include/roki/rk_joint.h:rkJointCatDis", "include/roki/rk_joint.h:rkJointSubDis"]}
{"id": "C66", "title": "Point velocity and acceleration are derivatives", "statement": "For a moving chain, the velocity and acceleration of a point fixed to a link, as returned for the point in the link frame, are the first and second time derivatives of the position of that point in the world (less the acceleration given to the root).", "quantifier": "all chains, motions, links and points", "why_tests_cant": "continuum of motions and points", "anchors": ["src/rk_link.c:rkLinkPointVel", "src/rk_link.c:rkLinkPointAcc"]}
{"id": "C67", "title": "A newly assigned joint is neutral, free and at rest", "statement": "Assigning a joint type by name accepts exactly the names of the eight joint types; whatever the joint was before, afterwards it has that type and its number of degrees of freedom, holds zero displacement, velocity, acceleration, torque, friction and friction pivots, has no limits and no motor, leaves the link frame unchanged and adds neither velocity nor acceleration. Any other name assigns nothing.", "quantifier": "all joints and all strings", "why_tests_cant": "all strings and all previous states of the joint", "anchors": ["src/rk_joint.c:rkJointAssign", "src/rk_joint.c:rkJointQueryAssign", "include/roki/rk_joint.h:rkJointNeutral"]}
{"id": "C68", "title": "Resetting a boundary representation undoes its truncations", "statement": "After any number of truncations by planes, rkBREPReset gives back the boundary representation made from the polyhedron: every vertex, edge and face of it is as it was made, everything made by the truncations is gone, and the surface is that of the polyhedron again.", "quantifier": "all polyhedra and all sequences of planes", "why_tests_cant": "the truncations rewrite, add and discard cells in combinations that depend on positions and on the history", "anchors": ["src/rk_cd_brep.c:rkBREPReset", "src/rk_cd_brep_trunc.c:rkBREPTrunc", "src/rk_cd_brep_trunc.c:rkBREPTruncPH3D"]}
{"id": "C69", "title": "A boundary representation converts back to its polyhedron", "statement": "rkBREP2PH3D makes a polyhedron with the positions of the vertices and with the faces in use of the boundary representation; converting a polyhedron forth and back keeps its vertices and triangles.", "quantifier": "all polyhedra and all sequences of truncations", "why_tests_cant": "unbounded meshes and histories", "anchors": ["src/rk_cd_brep.c:rkBREP2PH3D", "src/rk_cd_brep.c:rkPH3D2BREP"]}
{"id": "C70", "title": "A chain written to a file is read back", "statement": "If a chain is written with rkChainFPrintZTK and the file is read with rkChainReadZTK, the chain read has the same name, motors, shapes, links, joint types, displacements, joint properties, mass properties, frames and parents, with zero velocities, accelerations, forces and motor inputs, and the pose of every link, the total mass and the center of mass are those of the chain written.", "quantifier": "all chains: any number of links, any tree, any joint types and parameters, any order in which children were attached", "why_tests_cant": "the fields lost or changed depend on combinations of joint type, limits, motor and order of links; tests write a few robots", "anchors": ["src/rk_chain.c:rkChainFPrintZTK", "src/rk_chain.c:rkChainReadZTK", "src/rk_chain.c:rkChainFromZTK", "src/rk_link.c:rkLinkFPrintZTK", "src/rk_link.c:rkLinkFromZTK", "src/rk_joint_revol.c:__ztk_prp_rkjoint_revol", "src/rk_motor.c:rkMotorFPrintZTK"]}
{"id": "C71", "title": "Parents declared in a file make the tree, whatever the order of the links", "statement": "Reading a file whose links declare parents that lead from every link to the first one connects every link to its declared parent, with children in the order of the file, and changes nothing else; a file with any other declaration (no path to the first link, a cycle) is rejected.", "quantifier": "all files, all orders in which links are listed, all parent relations", "why_tests_cant": "there are exponentially many orders and parent relations; a wrong pointer update shows only for some", "anchors": ["src/rk_link.c:rkLinkConnectFromZTK", "src/rk_link.c:rkLinkAddChild", "src/rk_chain.c:rkChainFromZTK"]}
{"id": "C72", "title": "A file that refers to something that does not exist is rejected", "statement": "Reading a file that names a parent link, joint type, shape or motor that does not exist, or gives the same name to two links, returns the null pointer and has no undefined behaviour.", "quantifier": "all files", "why_tests_cant": "every key and every place of the wrong name counts; tests try valid files", "anchors": ["src/rk_chain.c:rkChainReadZTK", "src/rk_chain.c:rkChainFromZTK", "src/rk_link.c:rkLinkFromZTK", "src/rk_motor.c:rkMotorArrayFind"]}
{"id": "C73", "title": "Updating in steps, and updating again", "statement": "Updating the velocities of a chain and then its accelerations gives exactly the state that updating both at once gives. Updating frames, rates or inverse dynamics a second time without a change in between changes nothing.", "quantifier": "all well-formed chains, states and gravities", "why_tests_cant": "all tree shapes, joint types and stale states", "anchors": ["src/rk_link.c:rkLinkUpdateVel", "src/rk_link.c:rkLinkUpdateAcc", "src/rk_link.c:rkLinkUpdateRate", "include/roki/rk_chain.h:rkChainUpdateRate"]}
{"id": "C74", "title": "Each attribute of a joint is what was last set", "statement": "After any sequence of calls of the setters of a joint (displacement, velocity, acceleration, torque, minimum, maximum, friction), every getter returns the value last set for that attribute, or the initial one if it was never set; type, static friction and motor never change; new limits do not move the joint but bind the next displacement that is set.", "quantifier": "all joint types, initial states and sequences of setter calls", "why_tests_cant": "unbounded histories", "anchors": ["include/roki/rk_joint.h:rkJointSetMin", "include/roki/rk_joint.h:rkJointSetMax", "include/roki/rk_joint.h:rkJointSetVel", "include/roki/rk_joint.h:rkJointSetFriction"]}
{"id": "C75", "title": "Newton and Euler for the whole chain", "statement": "Along any smooth motion of a chain that is followed by forward kinematics and inverse dynamics at every instant, the acceleration of the centre of mass that the chain reports is the second derivative of the centre of mass it reports; the wrench that inverse dynamics finds at the root minus gravity and external forces is the rate of change of the total linear momentum, and of the total angular momentum about any fixed point.", "quantifier": "all chains, smooth joint motions, gravities, external wrenches and instants", "why_tests_cant": "a derivative of all motions in continuous time; finite differences only approximate one motion", "anchors": ["src/rk_chain.c:rkChainUpdateCOMAcc", "include/roki/rk_chain.h:rkChainUpdateID", "src/rk_link.c:rkLinkUpdateWrench", "src/rk_chain.c:rkChainAM"]}
{"id": "C76", "title": "Conservation of energy and momentum", "statement": "If the joint torques found by inverse dynamics do no work along a motion and no external force acts, the sum of the kinetic energy reported by the chain and the gravitational potential energy is constant in time; if moreover the root wrench vanishes and there is no gravity, the total linear and angular momentum reported by the chain are constant.", "quantifier": "all chains, smooth motions and gravities, all times", "why_tests_cant": "a conservation law over all continuous histories; simulations drift", "anchors": ["src/rk_chain.c:rkChainKE", "src/rk_chain.c:rkChainAM", "include/roki/rk_chain.h:rkChainUpdateID"]}
{"id": "C77", "title": "Impedance controllers follow the law of a spring and damper", "statement": "On a moving chain whose state is up to date, the velocity that an impedance controller of the inverse kinematics asks for exceeds the present true velocity of the controlled point, link or centre of mass by stiffness times error minus damping times velocity, axis by axis; the velocity used is the time derivative of the position (or the angular velocity of the attitude) and the attitude error is the rotation to the reference.", "quantifier": "all chains, smooth motions, instants, references, attention points and gains", "why_tests_cant": "all motions in continuous time", "anchors": ["src/rk_ik_imp.c:rkIKImpWldAtt", "src/rk_ik_imp.c:rkIKImpWldPos", "src/rk_ik_imp.c:rkIKImpWldCOM"]}
{"id": "C78", "title": "The constraint matrix is the derivative of the error", "statement": "For each built-in kind of inverse kinematics constraint the error is zero exactly if the constrained quantity is at its reference, and along every motion of the chain the error changes at the rate minus the constraint matrix times the joint velocities (for attitudes: the error rotation turns at that rate).", "quantifier": "all chains, smooth motions, instants, kinds of constraints, links, attention points and references", "why_tests_cant": "a derivative over all motions and tree shapes; tests take finite differences at a few states", "anchors": ["src/rk_ik_cell.c:rkIKLinkWldPosErr", "src/rk_ik_cell.c:rkIKLinkWldAttErr", "src/rk_ik_cell.c:rkIKLinkL2LPosErr", "src/rk_ik_cell.c:rkIKLinkL2LAttErr", "src/rk_ik_cell.c:rkIKCOMErr", "src/rk_jacobi.c:rkChainLinkToLinkLinJacobi"]}
{"id": "C79", "title": "An IK configuration file does what its lines say", "statement": "Reading a configuration file with rkIKConfReadZTK leaves the solver in the state that the calls its lines stand for would leave it in, in the order of the lines: `joint: all` and `joint: name [weight]` register joints with that weight or the default 0.001, `joint: name 0 values` puts the joint at a displacement (degrees and metres), `constraint: kind args` registers a constraint of that kind with the named links, attention point, weight and force mode. A file that names a link, joint or kind that does not exist is rejected.", "quantifier": "for all chains with distinct link names, all lists of joint and constraint lines with any weights, displacements and arguments, and both orders in which the ZTK library may go through the keys of a section", "why_tests_cant": "The files, their lines and arguments are unbounded, and half-read files differ from complete ones only in what is missing.", "anchors": ["src/rk_ik.c:rkIKConfFromZTK", "src/rk_ik.c:rkIKConfReadZTK", "src/rk_ik.c:_rkIKJointFromZTK", "src/rk_ik.c:_rkIKConstraintFromZTK"]}
{"id": "C80", "title": "rk_fk prints the pose of its link for every line of the sequence", "statement": "The tool rk_fk, given a chain, a link and a sequence of durations and joint displacements, prints one line for each step of the sequence and in its order; the position and attitude on the line are those that forward kinematics gives for the link at the displacement of that step, independently of the steps before.", "quantifier": "for all chains, links and sequences of any length", "why_tests_cant": "Sequences are unbounded and the tool reuses one chain for all steps, so a leak from one step to the next shows only for particular histories.", "anchors": ["app/rk_fk.c:rk_fkExec", "app/rk_fk.c:rk_fkOutput", "src/rk_chain.c:rkChainFK"]}
{"id": "C81", "title": "rk_id prints the inverse dynamics of every step of the sequence", "statement": "The tool rk_id prints one line for each step of the sequence; the pose quantities on it belong to the displacement of the step, the torques are those of inverse dynamics for the displacement, velocity and acceleration of the step, and the time is that of the step. The zero moment point on every line is a computed value.", "quantifier": "for all chains, gravity and sequences of any length", "why_tests_cant": "The velocities and accelerations are differences over the whole history of steps, so the property is about sequences and not about single calls.", "anchors": ["app/rk_id.c:rk_idExec", "app/rk_id.c:rk_idOutput", "src/rk_chain.c:rkChainFKCNT"]}
{"id": "C82", "title": "rk_ik holds what a step does not name, and prints the solution of every step", "statement": "The tool rk_ik prints one line for each step of an IK sequence, in its order, with the duration of the step and the displacements that the solver has computed. In each step the constraints named in it get its weights and references and no others do; a constraint that is not named is held at the value it has after the step before, and the solver starts from there. A joint that is not registered stays where it is during the whole run.", "quantifier": "for all chains, all histories of calls that have set up the solver, all sequences of any length, any tolerance and number of iterations", "why_tests_cant": "The reference of a constraint depends on all steps before it, and sequences, constraints and identifiers are unbounded.", "anchors": ["app/rk_ik.c:rk_ik_solve", "src/rk_ik.c:rkIKBind", "src/rk_ik.c:rkIKDeactivate", "src/rk_ik_seq.c:rkIKSeqCellSet"]}
{"id": "C83", "title": "rk_ikcell_merge merges files step by step", "statement": "The tool rk_ikcell_merge prints as many steps as the shortest of its files has; each step has all entries of that step of all files, in the order of the files, preceded by their number. Merging two IK sequence files gives an IK sequence file.", "quantifier": "for any number of files, any numbers of steps and of entries in them", "why_tests_cant": "Numbers of files, steps and entries are unbounded, and the files may have different lengths.", "anchors": ["app/rk_ikcell_merge.c:ikcell_merge_exec", "src/rk_ik_seq.c:rkIKSeqFPrint"]}
{"id": "C84", "title": "A pose file restores the pose", "statement": "Writing the pose of a chain with rkChainInitWriteZTK and reading the file with rkChainInitReadZTK into the same chain in another pose restores the displacements of all joints, the frame of the base, the frames of all links and the centre of mass, and leaves the velocities and accelerations of the joints. A file that names a joint the chain does not have is rejected.", "quantifier": "for all chains with distinct link names, all poses written and all poses the chain has when the file is read, and both orders in which the ZTK library may go through the keys of a section", "why_tests_cant": "The result depends on the pose written and on the pose overwritten, for every tree of links and every combination of joint types.", "anchors": ["src/rk_chain.c:rkChainInitFromZTK", "src/rk_chain.c:rkChainInitFPrintZTK", "src/rk_chain.c:rkChainInitReadZTK", "src/rk_chain.c:rkChainInitWriteZTK", "src/rk_joint.c:rkJointIsNeutral"]}
{"id": "C85", "title": "A converted URDF document is the robot it describes", "statement": "For a URDF document, the file that the program urdf2ztk writes can be read with rkChainReadZTK, and the chain read has the name of the robot, the links of the document in their order with names, masses and shapes, every link attached to the parent link named by its joint, and the type, limits, viscosity and friction of every joint. A document that does not describe a robot (a joint with an unknown link or without a type, a shape without a geometry) is rejected.", "quantifier": "for all documents: any number of links, joints, shapes and elements in any order, any tree of links, and both orders in which the ZTK library may go through the keys of a section", "why_tests_cant": "The program builds lists of pointers while it walks through a document of any size in any order; a test settles one document.", "anchors": ["app/urdf2ztk.c:urdf2ztk_eval", "app/urdf2ztk.c:urdf2ztk_eval_link", "app/urdf2ztk.c:urdf2ztk_eval_joint", "app/urdf2ztk.c:urdf2ztk_correct_frame", "app/urdf2ztk.c:output_ztk", "src/rk_chain.c:rkChainReadZTK"]}
{"id": "C86", "title": "Joint torques do the work of the inertial forces less the external wrenches", "statement": "At any pose reached by forward kinematics, the joint torques that rkChainID computes and rkChainGetJointTrqAll returns satisfy d'Alembert's principle: their scalar product with any joint velocities equals the work of the rates of change of linear and angular momentum of all links, minus the work of the external wrenches on the links, on the link velocities belonging to those joint velocities.", "quantifier": "every chain with any tree of links and any joint types, every pose, joint velocities and accelerations, root acceleration, external wrenches, and every virtual joint velocity vector", "why_tests_cant": "tests compare a few torques with numbers or with another solver; the identity ranges over all trees and all virtual motions", "anchors": ["src/rk_chain.c: rkChainID, rkChainUpdateID, rkChainGetJointTrqAll", "src/rk_link.c: rkLinkUpdateRate, rkLinkUpdateWrench", "src/rk_joint_*.c: _rkJointCalcTrq*, _rkJointIncVel*"]}
{"id": "C87", "title": "Joint torques are affine in the accelerations with a symmetric inertia matrix", "statement": "The joint torques from rkChainID depend on the joint accelerations through a matrix that is the same for every gravity, joint velocity and external wrench: the sum over links of mass and inertia tensor between the columns of the Jacobians. The matrix is symmetric, its quadratic form at the joint velocities is twice rkChainKE, and it is positive semidefinite.", "quantifier": "every chain, pose, joint velocities and accelerations, gravity, external wrenches", "why_tests_cant": "computed torque control and forward dynamics rely on the matrix being the same for all states; a test samples states", "anchors": ["src/rk_chain.c: rkChainID, rkChainKE", "src/rk_jacobi.c: rkChainLinkWldLinJacobi, rkChainLinkWldAngJacobi"]}
{"id": "C88", "title": "An external wrench enters the joint torques by the transposed Jacobian", "statement": "Pushing one more external wrench on a link changes the joint torques by minus the transposed Jacobians of its point of application times its force and torque in world coordinates, whatever the motion and the other wrenches.", "quantifier": "every chain, link, wrench, point of application, pose, motion, and other wrenches", "why_tests_cant": "a test pushes particular wrenches on particular links", "anchors": ["src/rk_link.c: rkLinkUpdateWrench", "src/rk_force.c: rkWrenchListNet, rkWrenchListPush", "src/rk_jacobi.c: rkChainLinkWldLinJacobi, rkChainLinkWldAngJacobi"]}
{"id": "C89", "title": "Gravity enters the joint torques by the Jacobian of the center of mass", "statement": "Changing the acceleration given to the root by a uniform one changes the joint torques by the total mass times the transposed Jacobian of the center of mass (rkChainCOMJacobi) times that acceleration.", "quantifier": "every chain of nonzero mass, pose, motion, external wrenches and gravity", "why_tests_cant": "gravity compensation by the COM Jacobian has to hold at every pose of every chain", "anchors": ["src/rk_chain.c: rkChainUpdateID, rkChainID", "src/rk_jacobi.c: rkChainCOMJacobi"]}
{"id": "C90", "title": "Joint torques scale with the square of the speed of a motion", "statement": "Playing a motion k times as fast (joint velocities times k, accelerations times k squared) with gravity and external wrenches scaled by k squared multiplies the joint torques of rkChainID by k squared.", "quantifier": "every chain, pose, motion, scale, gravity and external wrenches", "why_tests_cant": "time scaling of trajectories uses it at every state", "anchors": ["src/rk_chain.c: rkChainID", "src/rk_link.c: rkLinkUpdateRate", "src/rk_joint_*.c: _rkJointIncVel*, _rkJointIncAccOnVel*"]}
{"id": "C91", "title": "Collision volumes by boundary representations", "statement": "After rkCDColVolBREP the collision count is the number of pairs marked as colliding; exactly those pairs are marked whose bounding boxes collide and whose mutually truncated boundaries span a solid; each marked pair holds the hull of the two truncated boundaries as its collision volume, with its barycenter as the center and the normal with its orthogonal directions as axes. rkCDColVolBREPVert does the same for pairs of rigid contact, lists the contact vertices for the others, and counts both. rkCDColVolBREPFast gives a count of the marked pairs, too.", "quantifier": "All histories of registrations and queries, all poses of the links, all geometries, any number of cells and pairs.", "why_tests_cant": "The result depends on the whole history of the detector (flags, cached shapes, volumes of earlier queries) and on all poses.", "anchors": ["src/rk_cd.c:rkCDColVolBREP", "src/rk_cd.c:rkCDColVolBREPFast", "src/rk_cd.c:rkCDColVolBREPVert", "src/rk_cd.c:_rkCDPairColVolBREP", "src/rk_cd.c:_rkCDColVolError"]}
{"id": "C92", "title": "Normal of a collision volume", "statement": "The normal of a collision volume reverses when the two cells of the pair are exchanged, does not depend on the order of the faces, and points along the area vector of the second cell's boundary when the two boundaries close. Every query that sets the axes of a pair uses the normal at the present poses.", "quantifier": "All boundaries, all poses, all histories.", "why_tests_cant": "A statement about all face lists and about stale data of arbitrary earlier queries.", "anchors": ["src/rk_cd.c:_rkCDIntegrationNormBREP", "src/rk_cd.c:_rkCDColVol"]}
{"id": "C93", "title": "Forward dynamics solves the joint-space equation of motion", "statement": "The accelerations that rkChainABI returns, together with the joint-space inertia (the sum over links of mass and inertia tensor between the columns of the Jacobians), balance the applied joint torques: each applied torque equals the row of the inertia times the accelerations plus the torque that rkChainID gives for zero accelerations at the same pose and velocities. When the inertia is regular, no other accelerations do so.", "quantifier": "every chain of joint types whose articulated-body code is right, every pose, joint velocities, motor inputs and friction", "why_tests_cant": "a test compares forward dynamics with a matrix solution at a few states; the recursion never forms the matrix, so equality of the two is an argument over the tree of links", "anchors": ["src/rk_abi.c: rkChainABI, rkChainABIUpdate", "src/rk_chain.c: rkChainID", "src/rk_jacobi.c: rkChainLinkWldLinJacobi, rkChainLinkWldAngJacobi"]}
{"id": "C94", "title": "A solver returns the memory it took", "statement": "Whatever joints and constraints are registered in and unregistered from an inverse kinematics solver, and whichever requests for memory are denied, every call uses only memory that the solver owns, and after the solver is destroyed exactly the memory that was in use before its creation is in use: nothing is leaked and nothing is released twice.", "quantifier": "all chains (joint sizes), all histories of rkIKJointReg, rkIKJointUnreg, rkIKCellReg and rkIKCellUnreg, all heaps and all choices of the requests that are denied", "why_tests_cant": "a test cannot deny each of the requests of every history, and a leak or a second release has no visible effect in a single run", "anchors": ["src/rk_ik.c: rkIKCreate", "src/rk_ik.c: rkIKDestroy", "src/rk_ik.c: _rkIKAllocCMat", "src/rk_ik.c: _rkIKAllocJointIndex", "src/rk_ik.c: _rkIKAllocSRV", "src/rk_ik.c: rkIKJointReg", "src/rk_ik.c: rkIKCellReg", "src/rk_ik.c: rkIKCellUnreg"]}
{"id": "C95", "title": "No motion of a physical chain is without kinetic energy", "statement": "If every link has a positive mass and a positive definite inertia tensor, the joint-space inertia is positive definite: for joint velocities that are not all zero its quadratic form is positive, and it maps no nonzero vector to zero, at every pose.", "quantifier": "every chain of any joint types, every pose, every vector of joint velocities", "why_tests_cant": "definiteness is a statement about every velocity vector at every pose; a test evaluates a few", "anchors": ["src/rk_jacobi.c: rkChainLinkWldLinJacobi, rkChainLinkWldAngJacobi", "src/rk_chain.c: rkChainKE", "src/rk_joint.c: rkJointIncVel"]}
{"id": "C96", "title": "Forward dynamics of a physical chain is never degenerate", "statement": "If masses and inertia tensors are not negative and every link resists its own joint by more than the tolerance of zIsTiny, then in every state no joint of the chain is taken for massless by rkChainABI, the accelerations it returns solve the equation of motion, and with positive definite inertias they are its only solution.", "quantifier": "every chain of joint types whose articulated-body code is right with physical mass properties, every pose, joint velocities, motor inputs and friction", "why_tests_cant": "the articulated inertia of a joint depends on all links behind it and on the pose; that it never falls below that of the link itself is an induction over the tree", "anchors": ["src/rk_abi.c: rkChainABI, _rkLinkABIUpdateBackward", "src/rk_joint_revol.c: _rkJointABIAxisInertiaRevol, _rkJointABIAddAbiBiosRevol", "src/rk_joint_prism.c: _rkJointABIAxisInertiaPrism", "src/rk_joint_float.c: _rkJointABIAxisInertiaFloat"]}
{"id": "C97", "title": "urdf2ztk puts every link where the document says", "statement": "For a URDF document that describes a robot, the chain that is read from the file written by urdf2ztk has, with all joints at zero, the frame of every link at the product of the joint origins from the root to the link; a joint with an axis has this axis, seen from the root, along the z axis of its link; and the centre of mass and the inertia tensor of every link are, seen from the root, those of the document.", "quantifier": "all URDF documents that describe a tree of links, all origins, angles, axes and mass properties in them, all links", "why_tests_cant": "The frames depend on every origin on the path to a link and on the order of two recursive passes over the tree; a test covers the shape of one robot, and errors vanish when angles are zero.", "anchors": ["app/urdf2ztk.c: urdf2ztk_eval_origin, urdf2ztk_eval_joint, urdf2ztk_xform, urdf2ztk_xform_inv, urdf2ztk_correct_frame, output_ztk_link", "src/rk_chain.c: rkChainReadZTK, rkChainUpdateFK"]}
{"id": "C98", "title": "A chain returns the memory it took", "statement": "A clone of a chain owns memory of its own: it shares nothing with the original, so that either may be destroyed first. Whatever sequence of cloning, destroying, attaching and releasing wrenches, and preparing and releasing forward dynamics a program performs, no memory is released twice or used after release, and once a chain is destroyed all memory it had taken is returned.", "quantifier": "all chains (any links, joints, motors, shapes, materials, wrenches) and all sequences of calls on any number of chains", "why_tests_cant": "A test runs a few sequences on a few robots; leaks and double releases depend on the joint types, the materials and the order of the calls.", "anchors": ["src/rk_chain.c:rkChainClone", "src/rk_chain.c:rkChainDestroy", "src/rk_link.c:rkLinkClone", "src/rk_link.c:rkLinkDestroy", "src/rk_joint.c:rkJointClone", "src/rk_joint.c:rkJointDestroy", "src/rk_motor.c:rkMotorClone", "src/rk_motor.c:rkMotorArrayClone", "src/rk_abi.c:rkChainABIAlloc", "src/rk_abi.c:rkChainABIDestroy"]}
{"id": "C99", "title": "A collision detector returns the memory it took and never points to released memory", "statement": "Whatever chains and pairs are registered and unregistered with a collision detector, whatever queries are made and in whatever order, no memory is used after release or released twice, every cell of a pair is a registered cell, every contact vertex points into the live polyhedron of a cell of its pair, and when the detector is destroyed all memory it took is returned.", "quantifier": "all sequences of calls of any length, all numbers of chains and shapes, all outcomes of the geometric tests, all patterns of denied requests for memory", "why_tests_cant": "The number of histories is infinite, the dangling pointers appear only when a cell takes part in two collisions, and the lost cell only when a request for memory is denied at one point.", "anchors": ["src/rk_cd.c:rkCDChainReg", "src/rk_cd.c:rkCDCellReg", "src/rk_cd.c:rkCDChainUnreg", "src/rk_cd.c:rkCDPairReg", "src/rk_cd.c:rkCDPairUnreg", "src/rk_cd.c:rkCDPairChainUnreg", "src/rk_cd.c:rkCDReset", "src/rk_cd.c:rkCDDestroy", "src/rk_cd.c:rkCDColChkVert", "src/rk_cd.c:rkCDColChkOBBVert", "src/rk_cd.c:rkCDColVol", "src/rk_cd.c:rkCDColVolBREP", "src/rk_cd.c:rkCDColVolBREPVert"]}
