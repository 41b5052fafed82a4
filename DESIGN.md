# Formal model of RoKi in Lean 4: design

## Scope and method

The model is a set of total functions in Lean 4 that follow the C functions of
/repo one by one. Every definition cites the file and lines it models.
`Verif/Model/*` holds the model, `Verif/Spec/*` the small independent
specifications, `Verif/Lemmas/*` helper lemmas, and `Verif/Props/*` the property
theorems together with examples showing that their hypotheses can be met.

Numbers: `double` is idealised as an element of a field `K` (an ordered field
where the code compares, the reals where trigonometric functions or derivatives
matter, the rational numbers for concrete examples). Rounding is modelled for
forward kinematics, velocities and inverse dynamics only (C127, C130, C131); overflow, underflow and NaN are not modelled. A cached sine and cosine (`_s`, `_c` in the C structs) are two
field elements; where the code computes them from an angle, they come from an
interface `Zm` whose laws (`LawfulZm`) the real sine and cosine meet
(`Verif/Lemmas/ZmReal.lean`). A second instance over the rational numbers
(`Verif/Lemmas/ZmRat.lean`) lets the kernel evaluate concrete chains.

Memory: a buffer is a list; an access outside of it, a null pointer or any other
undefined behaviour makes the model function return `none`. A theorem that
concludes `some` therefore includes memory safety.

Trees: the C code walks links through `child` and `sibl` pointers. There are two
layers. In the functional layer a chain is the same binary tree (first child,
next sibling), so each recursive C function is a structural recursion of the same
shape. In the second layer the links are an array, as in C, and the passes write
into the array; refinement lemmas connect the layers.

Naming: a theorem `Cxx_name` belongs to property Cxx. The suffix `_partial` marks
a theorem that proves only a part of the property; the comment says what is
missing. The suffix `_fails` marks a counterexample: the code does not have the
property in that case.

## Trusted base

* Lean's kernel and the axioms propext, Classical.choice and Quot.sound. No other
  axiom is used by any theorem; the last section lists them per theorem.
* The reading of the C code expressed by the model (comments give the lines).
* The meaning of the ZEDA, ZM and Zeo functions called by RoKi. They are not in
  /repo. The assumed meanings are those of their public documentation:
  * Lists: `zListForEach` goes from tail to head, `zListForEachRew` from head to
    tail; `zListInsertNext` inserts after the given cell in the order of
    `zListForEach`; `zQueueEnqueue` inserts at the tail and `zQueueDequeue`
    takes the head. `zArraySize` of a null pointer is undefined.
  * Memory: `zAlloc` gives zeroed memory and does not fail.
  * Vectors: `zMat3D` is stored by columns, `zMat6D` as blocks by column and row;
    `zVec6DLinShift` adds `ang × p` to the linear part, `zVec6DAngShift` adds
    `p × lin` to the angular part; `zVec3DCat(a,k,b) = a + k b`.
  * Frames: `zXform3D(f,p) = f.att p + f.pos`; `zFrame3DXform(f,g) = f⁻¹ g`;
    `zFrame3DCascade(f,g) = f g`; `zRotMat3D(R,m) = R m Rᵀ`;
    `zMat3DError(A,B)` is the rotation vector of `A Bᵀ`; `zAACascade(a,d)` is
    the rotation vector of `d` after `a`; `zMat3DFromZYX` is `Rz Ry Rx`.
  * Numbers: `zPhaseNormalize` maps into (−π, π]; `zIsTol(x,tol)` is
    `|x| ≤ tol`; `zLimit` clamps; `ZITERINIT` replaces 0 by a default.
  * Linear algebra: an inverse of a matrix is the inverse whenever there is one;
    the elimination of `zLESolveGaussDST` solves every regular system and leaves
    the answer unchanged for a singular matrix.
  In theorems these are hypotheses (`LawfulZm K`, `Spec.Gauss`), not axioms, and
  instances show that they can be met.

## What is modelled

Each line gives a file of /repo, the lines that the comments of the model cite, and the files of `Verif/Model` that model them.

* `app/cad2ztk.c`: 7-14, 18-25, 27-43, 33-41, 59-76, 60-73, 85-90, 94-124, 110-121, 111-119, 126-157, 142-153, 149-153, 152-153, 161-184, 193-244, 246-265, 274-289, 291-306, 301, 340-356, 360-377, 381-393, 395-405, 407-434, 415-432, 417-431, 420-424, 426-427, 430-431, 436-458, 460-492, 468-491 (Cad2ztk.lean, CadFile.lean)
* `app/chain2gp.c`: 9-21, 14-19, 23-44, 33-42, 36-41 (Convert.lean)
* `app/chain2mshape.c`: 9-37, 24-33, 26-32, 27-28, 39-51 (Convert.lean)
* `app/mshape2chain.c`: 9-27, 29-41 (Convert.lean)
* `app/rk_fk.c`: 18-25, 34-46, 59-106, 98-102, 108-116, 114-115, 131-138, 132-138 (Apps.lean, Cmd.lean)
* `app/rk_ground.c`: 14-37, 31-34 (Tools.lean)
* `app/rk_id.c`: 28-34, 43-55, 57-71, 61, 73-106, 98-102, 119-136, 129-135, 147-161, 155-161 (Apps.lean, Cmd.lean)
* `app/rk_ik.c`: 107-135, 121-133 (Apps.lean)
* `app/rk_ikcell_merge.c`: 42-66, 49-53, 55-63, 56-63, 57-62, 62, 73 (Apps.lean)
* `app/rk_mp.c`: 11-16, 45-72, 75-105, 85-95, 107-123, 125-132, 134-158, 144-152, 166-170 (Cmd.lean, RkMP.lean)
* `app/urdf2ztk.c`: 5-12, 18-25, 20-24, 43-50, 65-78, 80-86, 108-111, 113-119, 121-130, 135-138, 137, 140-144, 146-163, 169-173, 171, 175-191, 178, 193-207, 199-203, 211-216, 218-223, 225-235, 237-247, 249-260, 253-258, 262-276, 264, 281-318, 297-304, 312-316, 320-341, 334, 335-339, 345-349, 351-355, 369-373, 375-379, 391-394, 402-406, 410-445, 420-430, 432, 432-435, 436-443, 436, 437, 449-466, 453-456, 468-476, 480-499, 488-495, 501-520, 509-516, 536-544, 536-539, 541-544, 551-570, 562-567, 574-582, 584-593, 595-602, 604-614, 616-622, 629-650, 644-649, 662-695, 666-677, 668-682, 686, 690, 703-720, 707-714, 718-719, 724-734, 751-774 (Urdf.lean, UrdfFile.lean, UrdfShape.lean)
* `app/zvs2zkci.c`: 22-34, 24-30 (Tools.lean)
* `app/zvs2zkcs.c`: 25-50, 39-46 (Tools.lean)
* `include/roki/rk_body.h`: 215, 271 (Body.lean, Ellips.lean)
* `include/roki/rk_cd.h`: 24-41, 60-76, 91-104, 110-115 (CD.lean, CDMem.lean, CDVol.lean)
* `include/roki/rk_cd_brep.h`: 19-24, 43-47, 66-71, 79-84 (BREP.lean)
* `include/roki/rk_chain.h`: 20-31, 34, 259-260, 261-262, 263-264, 265-268, 265-266, 267-268, 455-456 (Arith.lean, ChainFile.lean, ChainMem.lean, ChainTree.lean, RkMP.lean, Rounded.lean)
* `include/roki/rk_contact.h`: 16, 20, 25-40, 79 (CD.lean, Contact.lean)
* `include/roki/rk_force.h`: 20-23, 24 (Body.lean)
* `include/roki/rk_g.h`: 19-21, 21 (ABI.lean, Tools.lean)
* `include/roki/rk_ik.h`: 78-102, 230, 234 (IK.lean, IKConf.lean, Mem.lean)
* `include/roki/rk_ik_cell.h`: 24-30, 33-38, 40-46, 57, 58, 59, 62, 64-68, 70-87, 99, 103, 105-108, 112-115, 125-128 (IK.lean)
* `include/roki/rk_ik_imp.h`: 21-24 (IKImp.lean)
* `include/roki/rk_ik_seq.h`: 15-19, 22-26 (IKSeq.lean)
* `include/roki/rk_joint.h`: 25-28, 90-94, 269, 318, 336-347 (ChainFile.lean, ChainMem.lean, Clone.lean, Joint.lean)
* `include/roki/rk_joint_brfloat.h` (Joint.lean)
* `include/roki/rk_joint_cylin.h` (Joint.lean)
* `include/roki/rk_joint_float.h` (Joint.lean)
* `include/roki/rk_joint_hooke.h` (Joint.lean)
* `include/roki/rk_joint_prism.h` (Joint.lean)
* `include/roki/rk_joint_revol.h` (Joint.lean)
* `include/roki/rk_joint_spher.h` (Joint.lean)
* `include/roki/rk_link.h`: 20-36, 38-57, 44-46, 214, 373 (ChainFile.lean, ChainMem.lean, Link.lean, LinkHeap.lean)
* `include/roki/rk_motor.h`: 39-43, 75, 97-103 (ChainFile.lean, ChainMem.lean, Motor.lean)
* `include/roki/rk_motor_dc.h` (Motor.lean)
* `include/roki/rk_motor_trq.h` (Motor.lean)
* `src/rk_abi.c`: 27-40, 43-57, 60-66, 69-74, 77-83, 86-119, 122-132, 126-131, 135-143, 146-174, 146-155, 160, 177-189, 192-201, 204-215, 218-224, 227-248, 251-264, 279-289, 291-299, 301-314, 304, 316-324, 326-344, 353-361, 363-371, 373-384, 386-392, 394-423, 400-407, 410-412 (ABI.lean, ChainMem.lean)
* `src/rk_body.c`: 15-21, 24-30, 33-39, 43-59, 62-80, 83-86, 89-96, 99-106, 114-130, 142-166, 150-155, 158-159, 169-173, 176-185, 188-200, 203-213, 216-219, 222-229, 232-241, 251-261, 264-273, 276-285, 288-294 (Arith.lean, Body.lean, CadFile.lean, ChainMem.lean, Ellips.lean, Geom.lean, InPlace.lean, Rounded.lean)
* `src/rk_cd.c`: 24-48, 24-68, 51-55, 58-69, 72-79, 82-88, 106-113, 116-121, 124-139, 129-133, 131-132, 134-138, 136-137, 142-180, 142-158, 161-180, 167-176, 183-198, 183-197, 199-202, 205-221, 205-223, 210-215, 211-214, 217-221, 217, 218-221, 223-242, 226-243, 228-241, 244-259, 245-260, 248-258, 306-319, 307-320, 311-318, 312-317, 320-345, 321-345, 325-334, 335-344, 347-358, 354-355, 360-368, 370-385, 378-395, 386-391, 387-392, 394-398, 400-404, 406-420, 410, 413-419, 430-484, 432-485, 445, 448-466, 467-482, 468-471, 487-510, 494-503, 512-528, 517-527, 520-521, 523-526, 530-534, 535-570, 536-569, 545-548, 571-575, 573-577, 577-598, 585-606, 588-605, 594, 600-604, 606-629, 613-615, 631-644, 646-660, 662-697, 662-698, 688-692, 692, 699-711, 704-712, 713-748, 720-748, 722-747, 750-754, 756-760, 762-781, 767-780, 773, 783-787 (CD.lean, CDMem.lean, CDVol.lean)
* `src/rk_cd_brep.c`: 19-24, 27-34, 37-51, 54-62, 65-81, 84-107, 115-129, 132-147, 150-174, 162, 185-225 (BREP.lean)
* `src/rk_cd_brep_trunc.c`: 20-34, 28-30, 37-62, 45-57, 45, 65-145, 65-104, 80-82, 107-125, 128-145, 148-160, 163-200, 177-183, 203, 204-234, 238-251, 244-245, 254-264 (BREP.lean)
* `src/rk_chain.c`: 15-25, 28-44, 34-35, 46-76, 47-76, 55-58, 63, 68-75, 70-72, 79-89, 92-99, 102-119, 122-129, 132-141, 168-179, 182-192, 221-228, 231-238, 241-248, 271-280, 283-291, 327-334, 337-344, 341-342, 347-350, 353-357, 360-364, 367-373, 376-380, 383-388, 391-399, 402-411, 414-428, 431-445, 448-460, 463-469, 472-485, 479-482, 488-496, 499-513, 516-522, 525-535, 538-566, 546-564, 549-563, 569-579, 591-593, 598-600, 601-606, 604, 607-610, 616-672, 647-652, 650, 651, 660-672, 666-671, 703, 718-723, 721, 733-749, 743-746, 752-773, 760-766, 790-796, 798-802, 804-813, 826-833, 830, 836-840, 843-852, 849 (Arith.lean, Chain.lean, ChainFile.lean, ChainMem.lean, ChainTree.lean, Clone.lean, Cmd.lean, Convert.lean, Geom.lean, InPlace.lean, PoseFile.lean, PoseKeys.lean, Print.lean, Torsion.lean)
* `src/rk_contact.c`: 15-25, 28-38, 41-47, 43-44, 51-89, 91-99, 101-105, 108-126, 144-153, 149-152, 156-166, 162-165, 175-187, 185, 190-198, 213-221 (Contact.lean)
* `src/rk_force.c`: 15-22, 25-28, 31-42, 45-55, 49-54 (Arith.lean, Body.lean, Print.lean)
* `src/rk_ik.c`: 15-39, 42-57, 46-50, 60-80, 63-79, 67, 83-93, 87, 88, 96-135, 102-106, 108, 109, 110-135, 113-119, 121-123, 125-127, 131-133, 137-150, 137-146, 145-150, 147-149, 150-152, 155-163, 165-178, 166-179, 169-170, 171-173, 180-207, 180-202, 180-201, 184, 185, 189-200, 194-199, 202-207, 203-208, 211-218, 221-227, 230-236, 239-245, 248-267, 252, 256-264, 268-292, 275-286, 295-299, 302-307, 310-323, 326-339, 333-337, 342-350, 353-368, 361-366, 374-377, 379-382, 384-387, 389-392, 394-397, 399-402, 404-407, 410-422, 436-456, 441-442, 444, 446, 457-498, 459-462, 466-496, 500-503, 514-518, 520-531 (IK.lean, IKConf.lean, IKMethod.lean, Mem.lean)
* `src/rk_ik_cell.c`: 17-43, 45-50, 54-57, 59-62, 64-67, 69-74, 78-81, 83-86, 88-91, 93-96, 98-101, 103-106, 108-111, 207-210 (IK.lean)
* `src/rk_ik_imp.c`: 13-22, 25-36, 39-50, 53-61 (IK.lean, IKImp.lean)
* `src/rk_ik_seq.c`: 10-25, 17-23, 58-89, 64-87, 77-85, 78-84, 110-129, 116-127, 119-126 (IKSeq.lean)
* `src/rk_jacobi.c`: 14-18, 14-36, 20-24, 26-30, 32-36, 38-44, 48-58, 69-80, 83-95, 99-112, 105-108, 116-133, 123-127, 136-153, 144-151, 157-180, 167-176, 183-187, 190-199, 202-205, 207-220, 216 (Jacobi.lean, Manip.lean, RoundedJacobi.lean)
* `src/rk_joint.c`: 16-23, 25-33, 36-40, 43-47, 50-59, 62-71, 74-83, 96-98, 106-124, 126-135, 138-156, 158-162, 164-167 (ABI.lean, ChainFile.lean, ChainMem.lean, Clone.lean, InPlace.lean, Joint.lean, Torsion.lean)
* `src/rk_joint_brfloat.c`: 15-22, 25-27, 30-33, 37-39, 41-43, 45-47, 50-52, 54-56, 58-60, 62-64, 66-68, 70-72, 74-82, 84-93, 96-112, 115-121, 124-128, 130-140, 143-147, 150-152, 155-158, 161-165, 196, 200, 201, 202, 203, 206-217, 219, 222-233, 238-242, 243-248, 254, 255-256, 266-271, 272-279, 281-283, 291-295, 309 (ABI.lean, Arith.lean, ChainFile.lean, ChainMem.lean, Clone.lean, InPlace.lean, Joint.lean, JointMotor.lean, Rounded.lean, RoundedJacobi.lean, Torsion.lean)
* `src/rk_joint_cylin.c`: 11-19, 22-29, 32-35, 37-39, 41-43, 45-47, 49-51, 53-55, 58-60, 62-64, 66-68, 70-72, 74-76, 78-80, 82-85, 87-90, 93-103, 106-117, 108-112, 120-123, 125-130, 133-136, 139-142, 145-148, 151-154, 160-163, 165-168, 170-174, 175-178, 179-182, 183-186, 189, 190-192, 193-196, 197-200, 201-204, 205-208, 211-218, 220-243, 245-258, 260-268, 270-285, 287-293, 304-323, 324-328, 330-334, 365-367, 369-378, 392 (ABI.lean, Arith.lean, ChainFile.lean, ChainMem.lean, Clone.lean, InPlace.lean, Joint.lean, JointMotor.lean, Rounded.lean, RoundedJacobi.lean, Torsion.lean)
* `src/rk_joint_fixed.c`: 9-11, 11, 14, 17, 20, 21, 22, 25-29, 32, 33, 34, 37, 40-44, 58, 61, 62, 63, 64, 67, 69-73, 75-80, 83-85, 87-91, 94, 95, 144, 146 (ABI.lean, Arith.lean, ChainFile.lean, ChainMem.lean, Clone.lean, InPlace.lean, Joint.lean, JointMotor.lean, Rounded.lean, Torsion.lean)
* `src/rk_joint_float.c`: 11-13, 16-18, 21-24, 26, 28-30, 32-34, 36-38, 41-43, 45-47, 49-51, 53-55, 57-59, 61-63, 65-73, 75-84, 87-103, 106-112, 115-119, 121-130, 133-137, 140-142, 145-148, 151-155, 169-176, 190, 193, 194, 195, 196, 199-211, 213, 219-230, 223-225, 232-237, 239-241, 243-245, 259 (ABI.lean, Arith.lean, ChainFile.lean, ChainMem.lean, Clone.lean, InPlace.lean, Joint.lean, JointMotor.lean, Rounded.lean, RoundedJacobi.lean, Torsion.lean)
* `src/rk_joint_hooke.c`: 11-19, 22-30, 33-41, 43-45, 47-49, 51-53, 55-57, 59-61, 64-66, 68-70, 72-74, 76-78, 80-82, 84-86, 88-91, 93-96, 99-108, 111-120, 123-127, 129-138, 140-144, 147-150, 153-165, 168-180, 187-190, 192-195, 197-200, 202-205, 207-210, 212-215, 218, 220-222, 224-227, 229-232, 234-237, 239-242, 245-255, 257-259, 269, 271-275, 286-305, 306-310, 312-314, 333-335, 337-346, 360 (ABI.lean, Arith.lean, ChainFile.lean, ChainMem.lean, Clone.lean, InPlace.lean, Joint.lean, JointMotor.lean, Rounded.lean, RoundedJacobi.lean, Torsion.lean)
* `src/rk_joint_prism.c`: 11-17, 20-22, 25-27, 29-31, 33-35, 37-39, 41-43, 45-47, 50-52, 54-56, 58-60, 62-64, 66-68, 70-72, 74-76, 78-80, 83-91, 96-101, 104-106, 108-111, 114-116, 119-121, 124-129, 131-133, 138-140, 142-144, 146-148, 150-152, 154-156, 158-160, 163, 165-167, 169-172, 174-177, 179-182, 184-187, 190-198, 200-212, 214-225, 227-235, 237-247, 249-254, 263-278, 279-283, 285-287, 306-308, 310-319, 333 (ABI.lean, Arith.lean, ChainFile.lean, ChainMem.lean, Clone.lean, InPlace.lean, Joint.lean, JointMotor.lean, Rounded.lean, RoundedJacobi.lean, Torsion.lean)
* `src/rk_joint_revol.c`: 11-17, 14, 20-24, 27-30, 32-34, 36-38, 40-42, 44-46, 48-50, 53-55, 57-59, 61-63, 65-67, 69-71, 73-75, 77-79, 81-83, 86-95, 98-109, 103-107, 112-114, 116-119, 122-124, 127-129, 132-135, 137-139, 145-147, 149-151, 153-155, 157-159, 161-163, 165-167, 170, 172-174, 176-179, 181-184, 186-189, 191-194, 197-205, 207-219, 221-233, 235-243, 245-255, 257-262, 259, 263-270, 271-286, 287-291, 293-295, 294, 296-301, 318-327, 319, 340 (ABI.lean, Arith.lean, ChainFile.lean, ChainMem.lean, Clone.lean, InPlace.lean, Joint.lean, JointMotor.lean, Rounded.lean, RoundedJacobi.lean, Torsion.lean)
* `src/rk_joint_spher.c`: 11-15, 18-20, 23-26, 28, 30-32, 34-36, 38-40, 43-45, 47-49, 51-53, 55-57, 59-61, 63-65, 67-74, 76-85, 88-102, 105-109, 112-116, 118-123, 126-130, 133-135, 138-142, 145-149, 163-167, 181, 183-185, 187-190, 192-195, 197-200, 202-205, 208-217, 219-221, 231, 233-238, 239-243, 245-247, 248-250, 252-255, 269 (ABI.lean, Arith.lean, ChainFile.lean, ChainMem.lean, Clone.lean, InPlace.lean, Joint.lean, JointMotor.lean, Rounded.lean, RoundedJacobi.lean, Torsion.lean)
* `src/rk_link.c`: 15-31, 26-28, 34-41, 44-66, 69-76, 79-83, 81, 86-91, 94-98, 101-109, 112-115, 118-128, 120-122, 130-138, 140-147, 149-165, 167-174, 177-185, 179-180, 188-211, 199-202, 213-232, 219-226, 239-307, 241, 260, 264, 277, 299-307, 322, 325, 334-347, 343, 344, 345, 346, 349-351, 353-364, 360-362, 360, 362, 366-373, 375-387, 379, 384-385, 385, 390-397, 392-396, 401-410, 403-404, 404, 413-419 (Arith.lean, ChainFile.lean, ChainMem.lean, ChainTree.lean, Clone.lean, Convert.lean, InPlace.lean, Link.lean, LinkHeap.lean, PoseKeys.lean, Print.lean, Rounded.lean, Torsion.lean)
* `src/rk_motor.c`: 14-19, 21-31, 40-46, 63-66, 68-74, 76-82, 88-104, 99-102, 106-115 (ChainFile.lean, ChainMem.lean, Clone.lean, Motor.lean)
* `src/rk_motor_dc.c`: 22-35, 43-45, 47-49, 51-53, 55-57, 59-66, 135-145, 147-150, 152-155 (ChainFile.lean, ChainMem.lean, Motor.lean)
* `src/rk_motor_none.c`: 11, 12, 21, 23, 28 (ChainFile.lean, ChainMem.lean, Motor.lean)
* `src/rk_motor_trq.c`: 12-17, 25-27, 29-31, 33-35, 37-39, 41-43, 63-66, 68-71, 73-76 (ChainFile.lean, ChainMem.lean, Motor.lean)

## What is not modelled

* Floating-point rounding (except in forward kinematics, velocities, inverse dynamics, momentum, energy and Jacobian matrices, C127, C130-C132 and C138), overflow, NaN and the tolerance tests of ZM and Zeo
  beyond the laws given above.
* The ZTK parser of ZEDA: a file is a list of sections with keys and tokens, and
  `ZTKEvalKey`/`ZTKEvalTag` are modelled from their use (stop at the first null
  pointer; fields in the order of the file or of the table, every theorem for
  both).  Numbers are written exactly; `%.10g` rounds them in the code.  Of chain
  files, optical information and the contents of shapes are left out; what Zeo
  makes of the values of `rot`, `frame` and `DH` is a parameter (C115).  Other ZTK files
  (except where a property says so) and error messages are not modelled.
* Failure of memory allocation, except in the memory models of C94, C98 and C99.
* The geometric routines of Zeo (bounding boxes, GJK, inclusion and closest
  points, intersection of convex shapes): the model of collision detection takes
  them as parameters (`CDGeo`), so its theorems hold for any such routines, with
  a stated hypothesis (`Conservative`) where boxes must enclose shapes.
* The routines of Zeo on boundary representations (`zPH3D2BREP`,
  `zBREPTruncPH3D`, `zCH3DPL`, ...): parameters (`VolGeo`) of the model of
  collision volumes.  The lists of planes of a pair (`cplane`) are not modelled.
* Drawing, the `app` programs other than `rk_mp`, `cad2ztk`, `rk_fk`, `rk_id`, `rk_ik`, `rk_ikcell_merge`, `rk_ground`, `zvs2zkcs`,
  `zvs2zkci`, `urdf2ztk`, `chain2gp`, `chain2mshape` and `mshape2chain`, and the examples.  Colours of `urdf2ztk` are exact numbers, single precision in the code.  Of the modelled programs, messages are left out, and options other than those of `rk_fk`, `rk_id` and `rk_mp` (C112).
* Memory is modelled for the inverse kinematics solver (C94), for chains (C98) and for the collision detector (C99) only.  Every object of ZM and ZEDA is one block.  `zVecFree`,
  `zMatFree`, `zIndexFree` get the pointer by value and so cannot reset it (`nul = false`; the theorems that hold for both
  are stated for both); the work space of the linear equation solver is requested by four requests, all of them made.
  Elsewhere requests for memory are granted.

## How to read seeded/LOG.jsonl

Each record is one edit of the model, rebuilt in a scratch copy.

* `theorems_failed` lists the declarations at which that build reported an error; where an error lies outside any named declaration it lists the file or `example`. These are helper lemmas as well as property theorems. A build stops below a failing module, so it does not show every theorem that the edit breaks.
* `inferred_dependents` was not observed. It lists the property theorems that depend, in the current development, on a declaration whose last name component is that of a failed one. It may include theorems written after the edit was tried, and theorems that depend only on another declaration with the same last name.
* `claim_broken` is, for the edits generated by a script, the property assigned to the edited definition by a table, not a reading of each edit. A killed edit shows that some proof about the definition failed; where only a helper lemma failed, that the English claim became false was not checked separately.
* A survivor carries a `note` with the verdict on it, or the theorems tightened because of it. The same edit appears twice when it was tried again with a different result.
* Earlier versions of this file gave the inferred list under the name `theorems_failed` and contained exact repeats.

## Where the code does not have a property

Each of these theorems is a counterexample: the model, and with it the code as read, violates the property.

* `C26_prism_fails`: by a prismatic joint that is not at the root. Two bodies slide along the vertical on each other, with no motor, friction or external force. Inverse dynamics needs a force of twice the weight at the lower joint to produce the accelerations that forward dynamics reports (src/rk_joint_prism.c:214-225 leaves the inverse axis inertia out of the bias).
* `C26_cylin_fails`: by a cylindrical joint, even alone: the body falls upwards (src/rk_joint_cylin.c:270-285 adds the bias where the others subtract it).
* `C26_hooke_fails`: by a hooke joint: forward dynamics leaves its acceleration as it was, here at rest, although nothing holds the body (src/rk_joint_hooke.c:269).
* `C26_spher_fails`: by a spherical joint in the same way (src/rk_joint_spher.c:231).
* `C26_float_fails`: by a floating joint whose linear and angular velocities are not parallel: forward and inverse dynamics take different accelerations for the same joint rate, so a free body in free fall needs a force (src/rk_joint_float.c:121-130 is given the angular velocity of the parent by src/rk_abi.c:114 and that of the link itself by src/rk_link.c:160-162).
* `C29_fails`: After `rkGravitySet(0)` a body on a vertical slide, with no motor, friction or external force, still falls in forward dynamics (src/rk_abi.c:105 uses the constant `RK_G`), and inverse dynamics needs a force to explain it.
* `C57_repeat_fails`: The update for additional forces, made twice in a row for the same forces, counts them twice. A door is updated without forces, then pushed with a unit force: the acceleration becomes 1/2, which is what the complete update with that force gives. The same call again makes it 1 (src/rk_abi.c:301-314 subtracts the force from the bias force of the link, which only a link with a pushed descendant recomputes first).
* `C80_empty_fails`: for an empty sequence: the tool reads the vector of the first step before it looks whether there is one.
* `C81_time_fails`: for steps of different durations: the velocity of a step is the displacement divided by the duration of this step, while the times in the log differ by the duration of the step before. Two sliders that move by 1 between the lines at the times 0 and 1 get the velocity 1/2.
* `C81_zmp_fails`: when there is no zero moment point, as without gravity: the tool prints a variable that it has not initialised.
* `C83_sequence_fails`: for the sequences that `rkIKSeqPrintFile` writes and `rk_ik` reads (duration, number, and entries with three weights each): merging two of them prints a text which is not a sequence.
* `C69_back_fails`: Whatever the polyhedron, converting it and converting it back gives vertices that all lie on the `x` axis: the code copies the pointer to the position and not the position.
* `C69_discarded_fails`: also for the faces: the ones discarded by a truncation come out again.
* `C33_unbroken_is_free_fails`: in general: as long as the table has not been exchanged, forward dynamics treats a breakable joint as a free one, whatever its thresholds: same inertia seen by the joint, same contribution to the parent, same acceleration.
* `C33_broken_is_rigid_fails`: After the exchange it is treated as a rigid one: the parent carries the whole inertia and bias, and the link moves with its parent.
* `C33_never_exchanged_fails`: for all histories of a chain with nonnegative thresholds: no step of forward dynamics ever exchanges the table, so no load ever changes the behaviour of a breakable joint.
* `C33_rigid_fails`: a body of unit mass that hangs on a breakable joint which should carry 1000 N falls freely, and the joint is not considered broken.
* `C33_shared_fails`: a joint that does exchange the table, here because of a negative threshold, changes another joint, even of another chain: the body of `C33_rigid_fails` no longer falls.
* `C99_denied_fails`: fails when a request is denied: if there is no memory for the copy of the polyhedron, the cell is lost — it belongs to no list, and stays live when the detector is destroyed.
* `C99_obb_fails`: fails for `rkCDColChkOBBVert`: when a cell is in two colliding pairs, its polyhedron is released and made anew for the second of them, and the contact vertices of the first are left pointing to released memory.
* `C43_same_link_fails`: C43 fails: `rkCDPairReg` registers a pair of two shapes of one link.
* `C43_static_fails`: C43 fails: `rkCDPairReg` registers a pair of two static shapes.
* `C60_all_fails`: C60 fails: the pair of the first shapes is not watched, because they touch at registration; an explicit registration of the two links does not add it, because the pair with the other shape is there.
* `C46_result_fails`: C46 fails: after `rkCDColChkOBBVert` the static body is its bounding box, and a later query reports a collision that is not there.
* `C46_undefined_fails`: C46 fails: after `rkCDColChkOBBVert` a later query writes the vertices of a shape with more than eight vertices over the eight of its box.
* `C62_gjk_fails`: C62 fails: `rkCDColChkGJK` marks pairs but leaves the count of an earlier query.
* `C62_obbVert_fails`: C62 fails: `rkCDColChkOBBVert` counts vertices that it does not list.
* `C61_axes_fails`: C61 fails for the contact axes: they are transformed as points. The vertex below stays in contact while the other link moves by 3; its normal is still the unit vector, but the first contact axis is not.
* `C91_fast_fails`: C91 fails for `rkCDColVolBREPFast`: after any history, if the boxes of the polyhedra of the first pair that passes the box tests do not intersect, boundary representations that were never initialised are destroyed.
* `C91_index_fails`: C91 fails: the check accepts a face that refers to a vertex one past the last, and the query then reads it.
* `C92_vol_fails`: C92 fails: `rkCDColVol` does not compute the normal. At whatever poses it is called, the normals of all pairs remain as they were, and the axes of a pair that it marks are made from the normal that an earlier query left.
* `C53_nothing_fails`: C53 fails for every command line, whatever the files: the program shows its documentation, exits with success and writes nothing.
* `C64_shape_fails`: C64 fails for a shape row that names no link: instead of an error, the name of a null link is read.
* `C64_urdf_type_fails`: C64 fails for URDF output if a joint is of a documented type that URDF does not have: a null string is printed.
* `C64_urdf_root_fails`: C64 fails for URDF output: whenever a file is written, it has a joint whose parent is a link that is not in the file, if a row has no parent and no row is called `nil`.
* `C70_nomotor_fails`: fails: a robot without motors, with a joint that can have one, is written with the line `motor: noname`, and reading it searches an array of motors that does not exist, which is undefined behaviour.
* `C70_material_fails`: fails: to write a link without a material is undefined behaviour; with a C library that prints a null string as a word, the robot read back has this word as its material.
* `C98_leak_fails`: A program that clones a chain and destroys the clone `n` times has lost `n` times the blocks of the motors and materials of the chain: without bound, although it released all it could.
* `C98_abi_twice_fails`: Releasing the memory of forward dynamics twice is undefined (the pointers are not reset).
* `C98_abi_lost_fails`: Obtaining the memory of forward dynamics twice loses that of the first time, and a chain that is destroyed does not release it: of the second sample, in which one link moves, two blocks are lost each time.
* `C98_denied_fails`: If the request for the properties of a joint is denied, `rkChainClone` is undefined, where it should return the null pointer: `rkJointAssign` neutralises the joint through the null pointer.
* `C71_first_fails`: fails: a file that declares a tree, but lists the root after its child, is read as a chain of the child alone; the other link is left unconnected.
* `C71_cycle_fails`: fails: two links that declare each other as the parent are left unconnected without an error, and a first link that declares itself, or its child, as its parent makes the reading run without end.
* `C72_parent_fails`: fails: a parent that does not exist leaves the link, and all links after it, unconnected, without an error.
* `C72_motor_fails`: fails: a motor that does not exist leaves the joint without a motor, without an error.
* `C72_crash_fails`: fails: a joint type or shape that does not exist, a link that appears twice, a motor in a file without motors, and an initial displacement of a fixed joint lead to undefined behaviour.
* `C30_limits_fails`: by limits: a joint limited to [-1, 1] is set to 2; the original stops at 1, the clone goes to 2.
* `C30_friction_fails`: by stiffness and viscosity: the joint torque of the spring and the damper is zero in the clone.
* `C30_pop_fails`: by the order of the external wrenches: the last pushed wrench is the first to be popped from the original, and the last to be popped from the clone.
* `C112_options_fails`: The options `-chain` and `-link` of `rk_fk` are of no use: the usage is printed.
* `C112_init_fails`: A pose file that cannot be read does not stop the tools: they compute with the pose of the model.
* `C112_mp_fails`: `rk_mp` goes on when the file of the pose cannot be read, with the pose of the model, and also when the model cannot be read.
* `C112_logs_fails`: When one of the logs of `rk_id` cannot be opened the others before it have been emptied.
* `C56_hooke_fails`: C56 fails for a universal joint turned beyond a right angle about its first axis: restoring the configuration just read, into the very same chain, moves the link.
* `C63_unbound_fails`: C63: a section without keys before another section makes reading undefined: a null pointer is compared.
* `C63_alias_fails`: C63 fails for a section with keys of both groups: the parameters of an elastic contact may be those given for a rigid one. Here the viscosity is the given relaxation.
* `C63_write_fails`: C63: `rkContactInfoArrayWriteZTK` opens whatever file its uninitialised buffer names, not the one given.
* `C111_null_fails`: `chain2mshape` fails for every robot without shapes.
* `C111_overwrite_fails`: Run in the directory of the file that it converts, `chain2mshape` overwrites it: the robot is lost.
* `C111_overwrite2_fails`: So does `mshape2chain`.
* `C111_shared_fails`: A robot whose links share a shape is not restored: both shapes are written under one name, and both links of it get the first.
* `C111_gp_fails`: `chain2gp` fails for a robot with a sphere.
* `C141_inverse_fails`: by `rkChainID` of a floating body that spins about another axis than the direction of the additional velocity. A body of unit mass spins about the vertical through its centre of mass, with no acceleration. No force is needed to let it spin in place; if it also moves along the x-axis with unit velocity, a force of 2 along the y-axis is reported as needed.
* `C108_round_fails`: C108: where a shape is not a polyhedron, the ball is not a bounding ball. With two spheres on a link, the smallest ball that encloses the vertices of their polyhedra leaves out points of the spheres.
* `C108_leak_fails`: C108: if a shape is not converted to a polyhedron, the clone of the shape is never destroyed.
* `C36_no_joint_fails`: while no joint has ever been registered: the registration of a constraint reads the joint index, which has not been allocated, through a null pointer.
* `C37_index_fails`: after the only registered joint has been unregistered, the joint index still lists it, and the work vectors keep its component.
* `C38_unregistered_fails`: for a joint that was registered, moved by the solver, and unregistered: it keeps its last velocity and goes on moving although another joint only is registered.
* `C38_stale_index_fails`: as well when no joint is left: the stale index and the stale equation still move the joint.
* `C41_momentum_fails`: for the constraints on the angular momentum: a turning wheel, bound to its current momentum, still has an error.
* `C79_reject_fails`: a file that names a link that does not exist, or a kind of constraints that does not exist, is not rejected: a solver is returned in which the lines from there on are missing.
* `C79_order_fails`: when the lines are read in the order of the file, a file in which a constraint comes before the joints runs into undefined behaviour; with the joints first it does not.
* `C40_empty_fails`: while no constraint has ever been registered: `rkIKEq` sets the size of a matrix that does not exist.
* `C78_l2l_position_fails`: For an arm that turns with a tip fixed to it the error of the position of the tip with respect to the arm changes, although the constraint matrix, the velocity of the tip seen from the arm, says that it does not.
* `C42_digits_fails`: for numbers with more than ten digits.
* `C42_empty_fails`: for a step without entries, if `calloc` of nothing is the null pointer: the step and all that follow are lost.
* `C125_joint_in_place_fails`: Revolute and cylindrical joints: given the same frame as operand and result, `rkJointXform` makes two axes of it parallel. The result is not the displaced frame, and is no rotation at all, whatever the displacement, zero included.
* `C125_mass_combine_fails`: `rkMPCombine` with the first or the second operand as the result: the mass of that operand is overwritten before it is used, so that the center of mass is that of the operand, unweighted, plus the weighted one of the other. It is wrong unless the operand has its center of mass at the origin.
* `C125_points_fails`: Written over the point, `rkLinkPointAcc` takes the centripetal acceleration for the point, and `rkChainAM` takes the sum so far for the point: for one link it gives the angular momentum about the origin, wherever the point is.
* `C21_yaw_torque_fails`: The full statement is false of the code: with force (1,2,4) and torque (3,5,6) the yaw torque returned is 37/6 but the vertical moment about the ZMP is 37/4.
* `C04_stored_as_given_fails`: fails as stated: a revolute joint with limits 0 and 5 that is asked for 4, which respects the limits, does not store 4 (normalisation makes it negative and it is then raised to 0).
* `C05_velocity_fails`: fails as stated: a prismatic joint with limits -1 and 1 at rest at 0 that is asked for 2 in unit time stops at 1 and reports velocity 2.
* `C31_store_fails`: by prismatic, cylindrical and hooke joints, for all pivots: storing leaves the joint as it was and overwrites the caller's pivots with those of the joint; the buffer read into is returned as it was.
* `C31_fails`: a concrete pivot that is not read back.
* `C135_prism_fails`: by prismatic joints: a slider on a turning crank. The two chains describe the same mechanism, are in the same state of motion and have their joints in the same order, but `rkChainABI` returns different accelerations (src/rk_joint_prism.c:214-225 leaves the inverse axis inertia out of the bias, so what is passed on depends on the frame of the parent).
* `C94_leak_fails`: Whatever the chain, as soon as a joint and two constraints are registered, a block is leaked.
* `C94_order_fails`: A constraint that is registered before any joint that has coordinates makes the solver follow a null pointer, whatever other joints were registered or removed before, and whatever follows.
* `C94_offset_fails`: The request for the joint offsets is denied: the creation of the solver is reported as successful, and the registration of a joint follows a null pointer.
* `C94_denied_fails`: A request is denied while the second joint is registered: the destruction of the solver, which the caller has every reason to ask for after the failure, releases a block twice.
* `C140_yaw_fails`: The yaw torque is not: the moment about the vertical axis changes its sign in the mirror, while `rkChainYawTorque` returns the same number; it is not a moment (C21).
* `C140_half_turn_fails`: An exact half turn is not mirrored: a revolute joint that may turn from `0` to `π` can be set to `π`; its mirror image, that may turn from `-π` to `0`, goes to `0` when it is set to `-π`.
* `C09_link_acceleration_fails`: fails for floating joints: a body that flies in a straight line at constant velocity while it turns is given a non-zero linear acceleration.
* `C84_neutral_fails`: for a joint that is neutral when the pose is written: the file does not have it, and reading the file into the chain in another pose leaves the joint there.
* `C84_unknown_fails`: a pose file that names an unknown joint is not rejected, and the joints after it are not set.
* `C115_order_fails`: The lines `rot` and `att` do not commute: a file with `rot` before `att` places the link differently in the two orders.
* `C120_prism_fails`: by a prismatic joint that is not at the root: a unit force on the lower of two sliding bodies does not accelerate the upper one, but a unit force on the upper one accelerates the lower by 2 (src/rk_joint_prism.c:214-225).
* `C120_cylin_fails`: by a cylindrical joint: a force along the axis drives the body backwards (src/rk_joint_cylin.c:270-285).
* `C51_twice_fails`: C51 fails if a link is selected twice: it is counted twice.
* `C51_range_fails`: C51 fails for a number that is not the number of a link: instead of being refused it makes the tool read memory outside the array of links.
* `C118_aabb_fails`: Not so for `rkCDColChkAABB` alone: which pairs it marks depends on how the scene is turned.
* `C118_axes_fails`: Not so for the axes of the contacts, which are meant to be directions: if the same scene stands elsewhere, they are different, although nothing is turned.
* `C105_output_fails`: for every other command line: `rk_ground` never prints a contact model with defined behaviour. With four arguments it reads a fifth; with five it prints two null pointers as strings.
* `C106_file_fails`: with the name of an output file: nothing is ever written. The tool stops if there is no such file; otherwise the file stays as it was.
* `C106_empty_fails`: for an empty sequence: the tool takes the vector of a step that does not exist.
* `C54_half_turn_fails`: C54 fails for a revolute joint tilted by a half turn: the code divides by zero.
* `C54_hooke_fails`: C54 fails for a universal joint whose second axis has been turned to the first axis of the original frame: the displacement and the torsion found do not make up the frame, whatever the position.
* `C139_zmp_fails`: fails for the zero moment point: the test compares a force with a fixed number. As soon as small numbers count as zero, every robot, however hard it presses on the ground, has a description in which the zero moment point is refused.
* `C139_gravity_fails`: in forward dynamics when the unit of length changes: a body that falls freely with 9.8 in metres per second squared falls with 9.8 in millimetres per second squared too.
* `C139_prism_fails`: in forward dynamics of a prismatic joint that is mounted on a moving link when the unit of mass changes: in grams, two bodies on each other fall in another way than in kilograms.
* `C139_tolerance_fails`: in forward dynamics because of the tolerance: an arm that falls does not move at all when its mass is given in a unit so large that its inertia counts as zero.
* `C52_inertia_fails`: C52 fails for the inertia tensor, whatever the rotations for the axes are: in a robot of two fixed joints, the first turned by a quarter, the inertia tensor of the second link is not the same in the world after the conversion.
* `C52_com_fails`: C52 fails for the centre of mass, for all rotations that bring z to x: the link of a revolute joint about x, in a robot of this joint only, does not keep the position of its centre of mass in the world.
* `C52_axis_fails`: C52 fails for the axis, for all rotations that bring z to x: a revolute joint about x below a fixed joint turned by a quarter about z has, after the conversion, its z axis along the world's x, but the axis given is the world's y.
* `C85_dynamics_fails`: C85 fails for the elements `dynamics` of a joint: only the elements `dynamic`, which URDF does not know, are read, and without them the joint has no viscosity and no friction, whatever `dynamics` says.
* `C85_floating_fails`: C85 fails for the joint type `floating` of URDF: such a joint becomes a fixed one.
* `C85_unknown_fails`: C85 fails for a document in which a joint names a parent link that does not exist: it is not rejected, but a null pointer is followed, whatever the rest of the document says.
* `C85_root_fails`: C85 fails for a document whose root is not the first link, though URDF does not prescribe an order: the file that is written for it is read, but the root is then not reached from the first link, where all recursions over the chain start.
* `C85_type_fails`: C85 fails for a joint without a type: the null pointer is compared.
* `C85_geometry_fails`: C85 fails for a shape without a geometry: a file is written in which the link refers to a shape that is not there, and this file cannot be read.
* `C85_child_fails`: C85 fails for a joint whose child link does not exist: the joint is dropped without a word, and the second link is not reached.
* `C97_axis_fails`: C97 fails for the axis of a joint below a turned link: the document says that the joint turns about the y axis of the root, but it turns about the x axis.
* `C97_com_fails`: C97 fails for the centre of mass of a link whose joint has an axis other than z: it is not at `(0, 2, 1)` but at `(1, 2, 0)`.
* `C97_inertia_fails`: C97 fails for the inertia tensor of a link below a turned link, even on a fixed joint.
* `C107_size_fails`: C107, a shape with a wrong geometry: the program reads a null pointer or variables that are not set for a box without a size, and for one with less than three numbers.
* `C107_names_fails`: C107, names: the names of visual elements are those of a link in URDF, so two links may use the same. The file then has two shapes and two materials with the same name, and different contents.

## Plan and state of each property

* **C01 Joint offsets tile the joint vector.** List of joint sizes; `setOffset` is a left-to-right pass. Proved by induction on the list with the running counter generalised. State: proved.
* **C02 Joint vector set/get round trip.** Heap of joints as a list; set walks slices of the vector by offset. Induction on the list, using C01. State: proved.
* **C03 Indexed joint access agrees with whole-chain access.** Index = list of link numbers; set/get walk a pointer. Induction on the index. State: proved.
* **C04 Joint displacement never leaves its limits.** `limDis` per joint over a linearly ordered field with extended limits; phase normalisation over the reals. Case analysis; a witness refutes the last clause for revolute limits beyond a half turn. State: partial.
* **C05 Continuous displacement update differentiates what it stores.** `setDisCNT` per joint; equation by unfolding, guarded by 'limiter inactive'; witness for the refutation. State: partial.
* **C06 Forward kinematics is the composition of rigid transformations from the root.** Child/sibling binary tree with the code's recursion; `Path` relation as the independent specification; induction on the tree. State: proved.
* **C07 Forward kinematics forgets earlier poses.** Two trees with equal constant data and different computed data give the same result; induction on the tree. State: proved.
* **C08 Link velocity is the time derivative of the link pose.** Real-valued trajectories; HasDerivAt of every entry of the world frame; tree induction over paths. State: proved.
* **C09 Link acceleration is the time derivative of link velocity.** As C08 for second derivatives; refuted for the floating joint by a concrete witness. State: partial.
* **C10 Angular Jacobian reproduces link angular velocity.** Jacobian as column function over joint-vector positions; sum over columns; induction on the path. State: proved.
* **C100 Joint torques superpose over masses and loads.** Spec/MassLinear.lean: the chain with replaced mass properties and external wrenches, blending of moments. Proved by induction over the link tree that the own wrench of a link (in terms of mass, first and second moment) and the accumulated wrench are linear; lifted to the link array through the refinement of the traversal. State: proved.
* **C101 A joint moves and carries exactly the links beyond it.** Frames: corollary of the product formula C06 along paths. Loads: induction over the index tree; for the joint itself the whole subtree is compared with the lemma of C100 for a = 1, b = 0, for other nodes the motion handed down is the same. State: proved.
* **C102 Placing a robot elsewhere changes nothing but its place.** Spec/Placed.lean: the chain with the original frame of the root moved. Frames by C06; dynamics: the rates of the root are the same because gravity is turned along, the rest by induction over the subtree of the root. State: proved.
* **C103 Inverse kinematics goes downhill and stops only where no joint motion helps.** Props/IKDescent.lean: the normal equation (C58) gives progress = squared motion + damped squared velocities; the rate of the error is minus twice the progress because the error changes at the rate - J q' (C78) and the rows of the equation are the columns of J of the registered joints (C40). State: proved.
* **C104 Manipulability vanishes exactly at singular poses.** Model/Manip.lean: Gram matrix and determinant over the reals. Positive semidefiniteness, kernel of J J^T, determinant lemma; of a robot by C11 (Jacobian times velocities is the velocity of the point) and C102 (placement). State: proved.
* **C105 The ground that rk_ground designs.** Model/Tools.lean: main of rk_ground as a function of the list of arguments, with refused and undefined results. Equilibrium and characteristic equation over the reals; the printed result is undefined for every command line (null keys), proved as a failure. State: partial.
* **C106 Motion files converted to link configurations and pose files.** Model/Tools.lean: the loops of zvs2zkcs and zvs2zkci over forward kinematics; the mode in which the file is opened is part of the model. Induction over the sequence with C07; round trips by C56 and C84. State: partial.
* **C107 urdf2ztk keeps the shapes and the materials of a URDF document.** Model/UrdfShape.lean adds geometry and materials to the model of urdf2ztk; Spec/UrdfShape.lean says which points the solids of URDF and of ZTK have and which materials a document defines; the set of points is compared through C97_shapes, the list of materials by induction over the loops; Props/UrdfShape.lean. State: partial.
* **C108 The vertices of a chain enclose it, and so does its bounding ball.** Model/Geom.lean is rkChainVertList, rkChainBBall and rkBodyContigVert over abstract routines on shapes; Spec/Geom.lean says which points a chain occupies by the product of frames; induction over the loops, C06, affine images of convex hulls and convexity of balls; Props/Geom.lean gives a concrete set of shapes that obeys the assumed laws. State: partial.
* **C109 Every method for the joint velocities goes downhill, and all stop at the same poses.** Model/IKMethod.lean is rkIKJointVelMP and rkIKJointVelSR over routines of ZM whose purpose (smallest error, then smallest norm; smallest sum) is stated in Props/IKMethod.lean as a law; that the methods go downhill follows from the minimality by scaling, and the theorems of C103 are proved for every method that does; routines that obey the laws are constructed by projection. State: proved.
* **C11 Linear Jacobian reproduces point velocity.** As C10. State: proved.
* **C110 The results do not depend on the numbering of the links or the order of siblings.** Spec/Renumber.lean states what it means for two chains to be one robot with the links numbered otherwise (a bijection of the indices that carries paths to paths and keeps the properties of the links). The shapes are then isomorphic up to the order of siblings; forward kinematics follows from C06, and inverse dynamics by induction on the isomorphism, since the recursion over siblings only adds wrenches. State: proved.
* **C111 Converters between robots and sets of shapes keep the points in space.** Model/Convert.lean models the three converters on robots given by their set of shapes and, for every link, its frame and the places of its shapes in the set. The output is characterised by induction over links and shapes; the lines that gnuplot draws for rows of points are specified in Spec/Convert.lean. Refuted with witnesses: a robot without shapes (null pointer), a shape used by two links (written twice under one name, so that both links get the first on reading back), a shape that is no polyhedron in chain2gp, and the output that overwrites the input when the tool is run in its directory. State: partial.
* **C112 Command lines of rk_fk, rk_id and rk_mp.** Model the start of rk_fk, rk_id and rk_mp as functions from the options, the arguments and a world that says which files can be read and what is in them; the results are usage, an error with the files that have been opened, or the computation with its inputs. Prove exact characterisations by case analysis against a relational specification of where each input comes from; witnesses for the ignored options and unread files. State: partial.
* **C113 No history of operations depends on the numbering of the links.** A history is a list of operations run on the model of the chain; two descriptions are related by a renumbering that keeps ancestors and everything a link holds except its name and its place in the joint vectors.  Every pass of the library is a pass from the root or a pass from the leaves; both kinds are shown to respect the relation by induction over the trees (the sums over children commute), setters by the locality of the joint vectors.  Induction over the history. State: proved.
* **C114 No history of operations depends on where the robot stands.** the carried robot is a function of the robot (carryLink on every link, world quantities moved); every pass of the model over the link array commutes with it, by induction over the tree below the root and separately at the root, so that one action commutes with carrying and histories follow by induction; the mass of the links and the chain is an invariant needed for the center of mass. State: proved.
* **C115 A link is put where the lines of its section say.** The tables of links and of the pose with all rows (Model/PoseKeys.lean), the functions of Zeo that read the values of rot, frame and DH as parameters. Specification: the meaning of each line applied one after the other (Spec/PoseKeys.lean). Proof: the state splits into the frame and the rest, by induction over the lines in the order in which they are met; every file is reduced to a plain one, so that all theorems on reading apply. State: partial.
* **C116 The files cad2ztk would write are read back as the robot of the CSV tables.** The model of cad2ztk now has the script, the shape sections and the URDF meshes; `Cad.ztkFile` is the file as sections and lines of values. `C116_ztk` composes the writer with the model of rkChainReadZTK with pose keys (C115): every section is read back by `section_read`, the tree by `read_sections`, frames by induction over parents. `C116_script` and `C116_urdf_partial` are inductions over the tables. State: partial.
* **C117 What is printed of a chain tells its tree, its posture and its loads.** Model/Print.lean: the text of the connection character by character, the other two listings line by line with the printed values in the lines. The tree is read back from the indentation: induction over the tree, with the lines printed before it (owner), and with the lines that follow it (injectivity). Integers are read back from their digits. Posture: by C06. State: proved.
* **C118 Collision detection does not depend on where the scene stands.** The detector of C43-C47 in two runs of the same history, one with all link frames moved by one rigid motion. Spec/Scene.lean says what it means for the geometry to have no preferred position (Spatial) and for a detector to be the moved one (MovedCD). Proved by simulation: every loop body maps moved pairs and cells to moved ones; the box filter is compared through its closed form, since marks in between differ; induction over the history. Witnesses: a geometry of balls over the rationals, Spatial for every rotation; the axis-aligned check alone and the contact axes are proved not invariant. State: partial.
* **C119 The closed forms used as oracles in the library's own tests hold for all dimensions, states and motions.** The robots of the tests with symbolic dimensions (`Spec/Textbook.lean`); the recursive functions are evaluated symbolically link by link (`Lemmas/Textbook.lean`: frames, rates, wrenches) and compared with the closed forms using only s²+c²=1; the file of the pendulum is read symbolically. State: proved.
* **C12 Link-to-link Jacobians give relative velocity.** As C10, columns of the two paths combined, common ancestors cancel. State: proved.
* **C120 The response of forward dynamics to forces superposes, is reciprocal and never opposes the forces.** the same chain is updated with four sets of wrenches; superposition by induction over families of trees (the backward pass is affine in the loads for all joint types, the forward pass in the biases); reciprocity and sign from the equations of motion that the result satisfies (C26), by induction over the tree: the work of the loads is what masses and motors take up plus what is passed to the parent; prismatic joints below the root and cylindrical joints break it (two witnesses) State: partial.
* **C121 Inverse dynamics solves Lagrange's equations.** Spec/Lagrange.lean defines the Lagrangian as a caller computes it (fk, invDyn, ke, world centers of mass), the joints with coordinates and joint vectors within limits. Proof: after fk and invDyn the velocity of a link is a fold along its path (run_path); mixed second derivatives of frames differ by the bracket of twists (path_commute), accelerations come from path_acc (C09); one link is an algebraic identity (lag1_motion); the sum over links is the inertial work of d Alembert (C86). Component form, conserved momenta as corollaries. State: proved.
* **C122 Jacobians and static torques are the derivatives of what forward kinematics computes.** From the frames along a path as differentiable functions of the displacements (C121) and C10, C11, C13: the Jacobian times a direction is the velocity of the link, which is the derivative of the frame. Statics: Lagrange with the constant motion. State: proved.
* **C123 A short step of rkIKSolveOne reduces the error of the constraints.** C122 gives the derivative of the error of each cell along the line of displacements; C103 and C109 its sign. rkChainCatJointDisAll is the shift of the displacements (C65), so that the step is forward kinematics of the shifted displacements. State: proved.
* **C124 Reach and sensitivity of forward kinematics.** Spec/Reach.lean: length of a vector, stroke of a joint by its limits, sway of a point by a joint.  Reach: by induction on the path, with the triangle inequality, rotations keeping lengths, and the limits of C04.  Sensitivity: by induction on the path with the chord bound |R(a)y - R(b)y| <= |a-b||y|. State: proved.
* **C125 Results may be written over operands.** Model/InPlace.lean: stores of objects by address and the functions statement by statement; a call of Zeo reads its operands before it writes.  Proved by case distinction on equal addresses.  False for rkJointXform of revolute and cylindrical joints, which makes two axes parallel, for rkMPCombine, rkLinkPointAcc and rkChainAM: the negations are proved with the values that result. State: partial.
* **C126 Robots used by different threads do not disturb each other; only gravity is shared.** Spec/Threads: the state of a program is a family of robots and the one mutable global of the library, the gravity vector; a call is an action on one robot (the actions of C113) or a change of gravity; a schedule is a list of calls. Proved by induction over schedules: the projection to one robot is the run of its own calls, definedness, independence of the schedule, and the exception of gravity on a concrete pair of robots. Granularity: one call is one step. Calls on different robots touch different objects (the actions are functions of one robot), so a finer interleaving of them has the effect of some order of whole calls; two threads on one robot are not covered. State: proved.
* **C127 Rounding errors of forward kinematics grow at most in proportion to the number of links.** Model/Rounded: forward kinematics with every addition and multiplication rounded by a function with a relative error (the standard model of floating-point arithmetic); Spec/Rounding: errors as the largest change of a vector, the nearest number with 53 binary digits. Proved: error of a rounded product, of each joint transformation, one step along the path, induction along the path of the downward pass. The exact values are those of C06. State: proved.
* **C128 One mechanism described by different links and joints moves the same and needs the same torques.** Spec/Machine: an inductive relation between two trees of links that describe one mechanism (Same), with rules for equal links, cylindrical and universal joints split in two, and fixed links merged into their parent; one induction over this relation carries positions, velocities, accelerations, the wrench that each subtree asks of its base and the list of torques (Lemmas/Machine); sums over links by quantities linear in mass and moments (Lemmas/Machine2). State: proved.
* **C129 A joint that stands still may be replaced by a fixed joint.** Spec/Lock defines joints at rest and the chain with some joints replaced by fixed ones. Proved by induction over the two trees side by side: a joint at rest adds nothing to velocity and acceleration, and the original frame of the fixed joint is the frame that the joint produced. State: proved.
* **C13 COM Jacobian reproduces COM velocity.** Mass-weighted sum of C11. State: proved.
* **C130 Rounding errors of velocities stay bounded along the robot.** Model/Rounded repeats the velocity pass with every sum and product rounded. Errors are bounded term by term against the sum of the moduli of the terms, then by induction along a path through the two downward passes (exact and rounded) side by side; the frames of the rounded pass carry the errors bounded in C127. State: proved.
* **C131 Rounding errors of inverse dynamics stay proportional to the terms.** Forward kinematics and inverse dynamics are written once more over an arbitrary arithmetic (Model/Arith.lean); with exact arithmetic they are the functions of the model (exact_invDyn), with rounded arithmetic they are the computation on doubles, and with the arithmetic in which nothing cancels they give the size of the terms (Spec/RoundingDyn.lean). C131_inverse_dynamics compares the three runs over any tree, with an exponent that counts roundings; C131_robot is the bound for 53 digits. State: proved.
* **C132 Rounding errors of poses, center of mass, momentum and energy grow at most in proportion to the number of links.** `Model/Arith.lean` with the quantities of the whole robot; three runs (rounded, exact, nothing cancels) are compared link by link, then loop by loop. Division by a stored mass of zero is not covered (the model gives zero there, the code keeps the sum). State: proved.
* **C133 A robot simulated by forward dynamics obeys the energy balance.** `Props/Simulate.lean`: `Spec.Simulated` bundles a family of chains over time, each left by `rkChainABI`, whose joints move with the accelerations returned. Forward dynamics leaves a tree whose frames and velocities are settled, so forward kinematics and the rate pass change nothing; by C26 inverse dynamics then returns the applied torques, and the work-energy theorem C09 gives the balance. A weight falling along a vertical guide is shown to be such a simulation. State: partial.
* **C134 A robot simulated by forward dynamics obeys Newton's and Euler's laws.** `Props/Simulate.lean`: as C133, with the laws of C75 in place of the work-energy theorem; the wrench of the root is the one forward dynamics stored (C26), and zero when the root floats. A stone falling freely is shown to be such a simulation. State: partial.
* **C135 Forward dynamics does not depend on how a rigid body is divided into links.** Relation `Same` of C128 between trees of links.  Induction over the relation: what a level passes to its parent in the backward pass, as an affine function of the acceleration of the parent, is the same wrench seen from the other base, up to the loads fixed to the base; so the articulated inertia and bias of corresponding links agree, and the forward pass gives the same accelerations.  No regularity is assumed.  Violated for prismatic joints (witness). State: partial.
* **C136 The motion of a robot is the one of least constraint.** Spec/Gauss.lean: the constraint of a chain (energy of the accelerations less forces times accelerations of their points) from the frames, velocities and accelerations of its links. The difference of the constraints of two motions is the work of C86 on the difference of the accelerations plus the kinetic energy that belongs to it (accelerations of the links are affine in those of the joints, C87); with C95 and C96 this is the least, the only and the strict statement. Forward dynamics is partial as C96 is. State: partial.
* **C137 The inertial ellipsoid of a body.** Model/Ellips.lean: rkMPInertiaEllips with the eigenvalue routine of Zeo as a parameter; Spec/Ellips.lean: unit eigenvectors at right angles (either handedness), points of the surface of an ellipsoid, textbook inertia ellipsoid. The surface is the image of the unit sphere under the tensor by completeness of three orthonormal vectors; the rest follows from this description, which does not mention axes. State: proved.
* **C138 Rounding errors of Jacobian matrices.** Model of the axes of joints and of the world Jacobian matrices with every addition, subtraction and multiplication rounded (Model/RoundedJacobi.lean), on the loops of Model/Jacobi.lean, after the rounded forward kinematics of C127. The two loops run in lockstep; an axis, a lever arm and their product are bounded from the errors of frames. State: proved.
* **C139 Results do not depend on the units of length, mass and time.** Spec/Units.lean: the factors of a change of units (`UnitSys`) and the conversion of frames, velocities, accelerations, wrenches, mass properties, joints, links and chains; `Values` compares joint vectors slice by slice.  Every pass over the tree commutes with the conversion (induction over the tree), every setter does (by cases over the joint types), hence every history (induction over the calls; no well-formedness needed, undefined behaviour agrees too).  Friction coefficients and breaking thresholds are not converted, and no call of the histories reads them.  Forward dynamics (Lemmas/UnitsABI.lean) is compared under three conditions: the number of the built-in gravity (C29) is the same, the robot has no prismatic joints or the unit of mass is kept, and tests against zero have no tolerance (`UnitSys.Blind`, proved for exact real arithmetic in `C139_exact`); `C139_gravity_fails`, `C139_prism_fails` and `C139_tolerance_fails` show that each is needed.  The Jacobian matrices follow by induction over the path to the root (Lemmas/UnitsJacobi.lean), with one factor for each column.  The factor of time may be negative: a motion run backward needs the same forces.  `C139_tested_partial` assumes that the tolerance tests agree; `C139_zmp_fails` shows that they need not. State: partial.
* **C14 Angular momentum Jacobian reproduces angular momentum.** Sum over links of mass and inertia columns. State: proved.
* **C140 The mirror image of a robot does the mirror image of its motion.** Spec/Mirror.lean: the mirror image of vectors, attitudes, mass properties, joints, links and chains in the plane y = 0 (`Mirror`).  Every pass over the tree commutes with the mirror (induction over the tree), every setter does (by cases over the joint types; `Mirror.Fair` is what is assumed of the sine, the cosine, the normalisation of angles, the rotation of an angle-axis vector, tolerance tests and the inverse of a matrix, and is proved for exact real arithmetic), hence every history, including forward dynamics with motors and additional forces; the Jacobian matrices by induction over the path to the root.  `C140_symmetric` combines this with C113 (relabelling).  The setter with continuity is compared for robots without spherical and floating joints, since for these it computes an angle-axis vector of a rotation, which is ambiguous at half turns.  `C140_half_turn_fails`: a joint with range [-pi, 0] set to -pi goes to 0.  `C140_yaw_fails`: the yaw torque does not change its sign in the mirror. State: partial.
* **C141 A uniform motion of a floating robot changes neither forces nor accelerations.** Spec/Galilei.lean defines the robot with an additional velocity; Lemmas/Galilei.lean shows tree by tree that velocities shift by R^T V and that every pass of forward dynamics and the wrench pass of inverse dynamics commute with the shift. Inverse dynamics: the acceleration of a floating root is read with the spin of the body itself, so the claim is proved for roots that do not spin across v and refuted otherwise. State: partial.
* **C142 A motion played backward needs the same forces.** A history theorem over all actions of C139: reversing the motion is the change of units with the rate -1 (length and mass kept), so the relation of C139 is instantiated with it and restated through a specification that only negates velocities. C142_same says that nothing but the velocities differs for robots without DC motors; C142_inverse, C142_forward, C142_energy are the calls; C142_brake shows that the exception is needed. State: proved.
* **C143 Velocities enter the joint torques by a quadratic form.** Families of motions: along the tree, link velocities are linear and link accelerations are a quadratic form of the joint velocities plus what does not depend on them (induction over the tree, a closure calculus for such functions); the principle of virtual work (C86) carries this to the torques. The coefficients of the specification are differences of four calls of rkChainID. The Christoffel form applies the link-wise Lagrange lemmas of C121 to a motion with constant joint velocities. State: proved.
* **C144 A joint reports its motor consistently.** Model/JointMotor.lean models the four queries of a joint about its motor on a buffer, for the eight joint types. Case analysis on the joint and the motor shows what is written and that driving torque = input - resistance - inertia * acceleration; the link to dynamics is C26. State: partial.
* **C15 Total center of mass is the mass-weighted mean.** List of links; sums; convex combination. State: proved.
* **C16 Combining mass properties preserves total mass, first and second moments.** Explicit 3-vectors and 3x3 matrices over a field; ring identities. State: proved.
* **C17 Mass property transformation is invertible.** As C16 with orthonormality hypotheses. State: proved.
* **C18 Inverse dynamics root wrench balances the whole chain.** Recursive wrench pass over the tree; specification is a flat sum over links of wrenches transferred to the root frame. State: proved.
* **C19 Joint torques satisfy the power balance.** Virtual power by tree induction; per-joint duality lemma. State: proved.
* **C20 ZMP has the requested height and no tipping moment.** Root frame orthonormal; field identities. State: proved.
* **C21 Yaw torque is the vertical moment at the ZMP.** Refuted by witness; correct in the case that both divisors agree. State: partial.
* **C22 Kinetic energy is nonnegative and frame independent.** Linearly ordered field, quadratic forms. State: proved.
* **C23 Angular momentum transfers between reference points.** Sum identity. State: proved.
* **C24 External wrench summary equals the sum of pushed wrenches.** Sum over links with the skip condition explicit. State: proved.
* **C25 Wrench list is a stack whose net is order independent.** Wrench list as a List; permutation invariance. State: proved.
* **C26 Forward dynamics inverts inverse dynamics.** Articulated-body recursion on the tree; invariant 'transmitted wrench = I a + b'; per-joint lemmas; refutations for prismatic bias, cylindrical inertia and acceleration. State: partial.
* **C27 Incremental external force update equals full recomputation.** Path-only backward pass against full pass; tree induction; refutation of repeated use. State: proved.
* **C28 Saved acceleration biases are restored.** Push/pop as state functions. State: proved.
* **C29 Forward and inverse dynamics use the same gravity.** Gravity as a parameter of the two passes; refuted by witness. State: partial.
* **C30 A cloned chain behaves like the original.** Clone functions on the record model; refuted for limits; topology preserved by index relocation. State: partial.
* **C31 Friction pivot is remembered.** Per-joint set/get; refuted for three types. State: partial.
* **C32 Passive joint friction dissipates energy.** Ordered field. State: proved.
* **C33 A breakable joint breaks alone.** Global table of joint functions as shared state; refuted by witness. State: partial.
* **C34 Joint and motor types are found by name.** Search through the name table for arbitrary strings. State: proved.
* **C35 Motor input is limited and driving torque follows the motor model.** Ordered field. State: proved.
* **C36 IK cell identifiers are unique and retrievable.** Registry as sorted list; invariant over all operation histories. State: partial.
* **C37 IK joint index reflects the registered joints.** As C36; refuted for the empty case. State: partial.
* **C38 IK moves only registered joints.** Solver step with abstract linear solver; frame condition. State: partial.
* **C39 IK solver terminates and reports convergence faithfully.** Loop as recursion on the remaining count with an arbitrary step function. State: proved.
* **C40 IK equation rows are the enabled axes of active cells.** List of cells with modes; row count and row contents. State: partial.
* **C41 Binding constraints to the current state zeroes their error.** Per cell kind; refuted for angular momentum kinds. State: partial.
* **C42 IK sequences survive printing and scanning.** Token stream printing and scanning; round trip by induction. State: partial.
* **C43 Collision pairs are well formed.** State machine of cell and pair lists; invariant; refuted for explicit pair registration. State: partial.
* **C44 Unregistering a chain leaves no dangling reference.** As C43. State: proved.
* **C45 Broad phase never loses a collision.** Abstract geometric predicates; pass pipeline as list maps. State: proved.
* **C46 Collision queries leave shapes unchanged.** State with cell shapes; refuted by witness. State: partial.
* **C47 Plane truncation handles every face configuration.** Lists of cells with numbers for pointers, freed cells as `none`, so that reading a missing cell fails. Surface = union of the triangles in use. Each of the 27 sign patterns is shown to replace a triangle by triangles that cover its part beneath the plane (barycentric coordinates over an ordered field); an invariant over the loop on the faces carries coverage, the link of cut points with edges, and consistency of faces, edges and vertices. State: proved.
* **C48 Polyhedron to boundary representation conversion shares vertices and edges.** Find-or-register fold over the triangles; invariant: no duplicates, nothing superfluous, every face carries its triangle and sides. State: proved.
* **C49 Contact property lookup is symmetric and first match.** List search. State: proved.
* **C50 Link tree construction yields a forest visited once.** Pointer heap, `Rep` predicate to a tree; invariant over histories. State: proved.
* **C51 Composite mass properties of selected links.** List sums; Steiner term. State: partial.
* **C52 URDF conversion preserves the robot.** Frame algebra; refutations for inertia. State: partial.
* **C53 CAD conversion tool converts.** Control flow function with exit; refuted. State: partial.
* **C54 Joint torsion decomposition is exact.** Rotation factorisation, abstract angle-axis maps; refuted for hooke. State: partial.
* **C55 Spatial inertia transfer matches rigid-body physics.** Block matrices over a field. State: proved.
* **C56 Recording and restoring a configuration is lossless.** Per-joint inversion of the joint transformation by the torsion, induction over the tree with the world frames fixed, and C06 for the final frames; refuted for universal joints beyond a right angle. State: partial.
* **C57 Repeating the incremental force update changes nothing.** Model/ABI.lean. Witness for the violation by evaluation in the kernel; with a pop between the calls it follows from the history theorem C27_history. State: partial.
* **C58 The default inverse kinematics method computes the damped weighted optimum.** The normal equation of the method as sums over rows; completing the square over an ordered field; the elimination is a parameter that solves every regular system. State: proved.
* **C59 A step of an IK sequence addresses exactly the constraints it names.** Fold over the entries of a step against a map over the constraints. State: proved.
* **C60 Registering and unregistering a pair of links.** State machine as C43; which pairs are watched after each registration call; refuted for the completeness of rkCDPairReg. State: partial.
* **C61 Contact vertices persist in the frame of the other link.** Invariant over all histories on the lists of contact vertices; refuted for the contact axes, which are transformed as points. State: partial.
* **C62 The collision count is the number of collisions found.** Count of marked pairs, with the geometric routines as parameters; refuted for two of the queries. State: partial.
* **C63 Contact property files are read faithfully.** Induction over sections against a declarative reading of each section; printing composed with reading; refuted where a section gives no keys, mixes the groups, and for the written file name. State: partial.
* **C64 CAD conversion preserves poses, mass properties and attachment.** Tables as lists of records; search by unique names; induction over the lineage of a link with frames composed and scaled; refuted for shape rows without a link and for URDF output. State: partial.
* **C65 Displacement vectors add and subtract joint by joint.** Generic blockwise update lemma by induction on the links; per joint type, algebra of rotations. State: proved.
* **C66 Point velocity and acceleration are derivatives.** Derivatives of frames from C08 and C09 applied to a fixed point. State: partial.
* **C67 A newly assigned joint is neutral, free and at rest.** Case analysis over the table of joint types; all getters of the model. State: proved.
* **C68 Resetting a boundary representation undoes its truncations.** Every step of a truncation keeps what a reset reads of the original cells and adds only cells that a reset removes, an invariant over the list of planes without any hypothesis on the planes; the reset cells are compared cell by cell with the converted polyhedron, and the surface follows. State: proved.
* **C69 A boundary representation converts back to its polyhedron.** The copy of the pointer bytes is modelled by an arbitrary function from cells to numbers; for every such function the polyhedron that comes back is flat, so the property fails for every polyhedron. Discarded faces come out again, on a cut tetrahedron. State: partial.
* **C70 A chain written to a file is read back.** Model/ChainFile.lean: the tables of keys of chain, link, joints and motors as rows with a reading and a printing function, evaluated by ZTKEvalKey in the order of the file or of the table (the theorem holds for both). Sections are lists of fields with tokens. The round trip is proved table by table (groups of fields), then section by section, then for the whole file; the pose by uniqueness of the path to the root, which does not depend on the order of children. Witnesses for the violations. State: partial.
* **C71 Parents declared in a file make the tree, whatever the order of the links.** Same model. Reading commutes with removing the parent lines; the calls of rkLinkAddChild are proper in the sense of C50, so its theorem gives the tree. Witnesses for files that should be rejected. State: partial.
* **C72 A file that refers to something that does not exist is rejected.** Same model. The null pointer is returned exactly for files without links; witnesses for the outcomes of wrong names. State: partial.
* **C73 Updating in steps, and updating again.** The recursive passes on link arrays are reduced to passes on trees; on trees the two-step and the one-step pass agree by induction, and each pass is idempotent. State: proved.
* **C74 Each attribute of a joint is what was last set.** A history is a list of setter calls; by induction over it every getter is the last value written (a specification function over the history), and C04 gives the limits in force. State: proved.
* **C75 Newton and Euler for the whole chain.** `Verif/Props/Laws.lean`. A driven chain is a smooth motion (Spec/Motion.lean) followed at each time by updateFK and updateID. Sum over the links of the derivative theorems C08/C09 and the root wrench theorem C18. Partial: a floating joint with non-parallel linear and angular velocity has wrong accelerations (C09). State: partial.
* **C76 Conservation of energy and momentum.** `Verif/Props/Laws.lean`. Energy from the work-energy theorem of C09, momentum from C75, each by a zero derivative on the whole line. Same restriction as C75. State: partial.
* **C77 Impedance controllers follow the law of a spring and damper.** `Verif/Model/IKImp.lean`, `Verif/Props/IKImp.lean`. The three controllers that src/rk_ik_imp.c defines; the velocity is related to the motion by C08 and C66. `rkIKImpTtlAtt` and `rkIKImpTtlPos` are declared in the header and defined nowhere. State: proved.
* **C78 The constraint matrix is the derivative of the error.** `Verif/Props/IKError.lean`. Jacobian theorems C10 to C14 with the joint velocities read from the moving chain, derivative theorems C08 and C66. Found: the position of a link with respect to another takes the error in world coordinates and the matrix of the velocity seen from the turning link (`C78_l2l_position_fails`). State: partial.
* **C79 An IK configuration file does what its lines say.** `Verif/Model/IKConf.lean`, `Verif/Spec/IKConf.lean`, `Verif/Props/IKConf.lean`. The lines are a small language of their own, written to the tokens of the file format of `Verif/Model/ChainFile.lean` and read back by the model of the parser; the effect is compared with a history of calls (`IK.runAll`), so that C36 to C41 apply to solvers that come from files. Found: the result of the parser is not looked at. A file with an unknown link, an unknown kind of constraints or a fixed joint gives a solver without the rest of the lines (`C79_stop`, `C79_reject_fails`); a constraint before the first joint is undefined behaviour (`C79_order_fails`, a case of C36). State: partial.
* **C80 rk_fk prints the pose of its link for every line of the sequence.** `Verif/Model/Apps.lean`, `Verif/Props/Apps.lean`. The loop of the tool threads one chain through all steps; proved by induction over the sequence, with the invariant that the chain differs from the first one in its joint displacements and what is computed from them only. Found: an empty sequence crashes (`C80_empty_fails`). State: partial.
* **C81 rk_id prints the inverse dynamics of every step of the sequence.** Same files. The tool calls `rkChainFKCNT` (forward kinematics and inverse dynamics, see `Verif/Lemmas/FKCNT.lean`); the specification `Spec.IDRun` gives the rates as differences. Found: the printed time is not the one of the pose (`C81_time_fails`), and the zero moment point is not initialised when it does not exist (`C81_zmp_fails`). `C81_rates_partial` needs steps of equal durations, because of the first of these. State: partial.
* **C82 rk_ik holds what a step does not name, and prints the solution of every step.** `Verif/Model/Apps.lean`, `Verif/Props/AppsIK.lean`. Induction over the sequence with the invariant that the solver is reached by a history of calls which registers nothing new; C59 then gives the effect of a step, C41 what is held, C38 the joints that are not registered. Partial for constraints on the angular momentum, see C41. State: partial.
* **C83 rk_ikcell_merge merges files step by step.** `Verif/Model/Apps.lean`, `Verif/Props/AppsMerge.lean`. Files are lists of tokens; induction over the rounds and the files. Found: the tool has a format of its own (number, and entries with one weight), not that of IK sequences (duration, number, and entries with three weights): two sequences are merged to a text that is not a sequence (`C83_sequence_fails`). State: partial.
* **C84 A pose file restores the pose.** `Verif/Model/PoseFile.lean`, `Verif/Props/PoseFile.lean`. The functions for the tag `init` are those of C70; the text written from one chain is read into another state of it. Found: neutral joints are not written, so they stay where they are in the chain that reads (`C84_neutral_fails`); an unknown joint ends the reading silently (`C84_unknown_fails`). State: partial.
* **C85 A converted URDF document is the robot it describes.** `Verif/Model/UrdfFile.lean`, `Verif/Props/UrdfFile.lean`. The document is a tree of elements (libxml2 and materials are outside); the evaluation, the pointers between links and joints, the frame correction and the writer are modelled, and the file is read by the model of C70. Proof: the evaluation is followed on the state without frames and sibling lists, the keys of a section may be permuted, and the connections come from C71. Found: the root must be the first link (`C85_root_fails`); `dynamics` and `floating` are not known (`C85_dynamics_fails`, `C85_floating_fails`); an unknown parent or a missing type is a null pointer (`C85_unknown_fails`, `C85_type_fails`), an unknown child is dropped (`C85_child_fails`), a shape without geometry gives an unreadable file (`C85_geometry_fails`). State: partial.
* **C86 Joint torques do the work of the inertial forces less the external wrenches.** Virtual work by induction over the tree of links (`virtual_work_tree`): the wrench that `rkLinkUpdateWrench` collects and the velocity that `rkLinkUpdateRate` distributes are dual, joint by joint (`jointWork_eq`, all nine joint types); the local identity is turned into world coordinates and lifted to chains through the gathered tree. State: proved.
* **C87 Joint torques are affine in the accelerations with a symmetric inertia matrix.** Two runs that differ in the accelerations only have link accelerations that differ by the link velocities of a third run (`all3_updateRate`, over three trees at once); with C86 on unit joint velocities and C10/C11 this gives the matrix by Jacobians. State: proved.
* **C88 An external wrench enters the joint torques by the transposed Jacobian.** C86 for two chains that differ in one wrench. State: proved.
* **C89 Gravity enters the joint torques by the Jacobian of the center of mass.** C86 with the affine rate lemma started from a uniform velocity field (`field_tree`), and C13. State: proved.
* **C90 Joint torques scale with the square of the speed of a motion.** C86 with the same lemma for a factor. State: proved.
* **C91 Collision volumes by boundary representations.** Model/CDVol.lean: the loops of the three queries over the pairs with the members norm, axis and center; boundary representations are lists of vertices and triangles, Zeo's routines on them are parameters. Closed form of the loops (the result for a pair does not depend on the cells touched before), then case analysis per pair. rkCDColVolBREPFast destroys an uninitialised local if the boxes of the first marked pair's polyhedra do not intersect (C91_fast_fails, for every history); the check of vertex indices is off by one (C91_index_fails). State: partial.
* **C92 Normal of a collision volume.** The normal is the sum of the area vectors of the second boundary less that of the first: sums over permuted lists, exchange, closed boundaries. rkCDColVol never computes the normal: C92_vol_fails shows for all states that the normals and axes are those of an earlier query. State: partial.
* **C93 Forward dynamics solves the joint-space equation of motion.** The chain that forward dynamics leaves has the poses, offsets and mass properties of one posed by forward kinematics (invariants of the sweeps), so the affine form of the torques (C87) applies to it; C26 says that inverse dynamics at the returned accelerations gives the applied torques. Uniqueness follows from regularity of the inertia. State: partial.
* **C94 A solver returns the memory it took.** A heap of numbered blocks with an oracle of granted requests; each function is a state transformer that is undefined on a use or release of a block that is not live. Invariant: the live blocks are, as a multiset, those of the solver, the leaked ones and those of others (ownership), by induction over the history. State: partial.
* **C95 No motion of a physical chain is without kinetic energy.** From C87 (semidefinite) and C22 (kinetic energy): a vanishing form makes every link stand still, then every joint by induction over the path (the map from joint rate to relative velocity is injective for each joint type). State: proved.
* **C96 Forward dynamics of a physical chain is never degenerate.** Invariant of the backward pass: the articulated inertia is symmetric and not less than the inertia of the link, since the inertia handed to the parent (reduced along the joint axis) is positive semidefinite. So the number that zIsTiny judges is at least the moment of the link itself; with this C26 and C93 need no hypothesis on the intermediate state. Uniqueness from C95. State: partial.
* **C97 urdf2ztk puts every link where the document says.** End to end: model of app/urdf2ztk.c (Model/UrdfFile) composed with the model of rkChainReadZTK and rkChainUpdateFK. Specification in Spec/UrdfPlace: the frame of a link by the origins of the joints of the document (At), the frame the program gives (Put), mass properties (IsMass). Proof: the child lists built during evaluation form a tree (invariant over the evaluation), both recursive passes visit every joint after its parent (induction on the recursion), composition with the round trip of C85 and forward kinematics C06. Axis, centre of mass and inertia tensor fail below turned links or joints with an axis: witnesses. State: partial.
* **C98 A chain returns the memory it took.** Model/ChainMem.lean: pointers of chains, links, joints and motors on the heap of Model/Mem.lean; clone, destroy, memory of forward dynamics, wrenches. Proved: a clone consists of new blocks only; destruction releases exactly a stated set of blocks; any orderly program is defined and the number of lost blocks is given exactly; the chains whose clones are returned completely are characterised. Fails: motors and materials are never released, forward dynamics twice, denied requests. State: partial.
* **C99 A collision detector returns the memory it took and never points to released memory.** Model/CDMem.lean: cells, pairs, contact vertices, planes and volumes of a detector as blocks of the heap of Model/Mem.lean; the outcomes of the geometric tests are arbitrary. Proved by induction over the calls, for every pattern of denied requests: no undefined access, ownership of every block, pointers lead to live cells and polyhedra, everything is returned. Fails: a cell is lost when its polyhedron cannot be copied; rkCDColChkOBBVert leaves contact vertices pointing to released polyhedra. State: partial.

## Axioms of the property theorems

As printed by `#print axioms`.

* Classical.choice, Quot.sound, propext: `Roki.C01_offsets_tile`, `Roki.C02_dis_roundtrip`, `Roki.C02_get_slices`, `Roki.C02_rate_roundtrip`, `Roki.C02_vel_roundtrip`, `Roki.C03_default_index`, `Roki.C03_default_index_access`, `Roki.C03_unlisted_unchanged`, `Roki.C04_idempotent`, `Roki.C04_stored_as_given_fails`, `Roki.C04_stored_as_given_partial`, `Roki.C04_within_limits`, `Roki.C04_within_limits_cnt`, `Roki.C05_acceleration`, `Roki.C05_velocity_fails`, `Roki.C05_velocity_partial`, `Roki.C06_fk_composition`, `Roki.C06_fk_rotation`, `Roki.C06_fk_rotation_any`, `Roki.C06_root_sibling_faults`, `Roki.C07_fk_history_free`, `Roki.C07_fk_repeat`, `Roki.C08_chain_com_velocity`, `Roki.C08_com_velocity`, `Roki.C08_link_velocity`, `Roki.C09_com_acceleration_partial`, `Roki.C09_link_acceleration_fails`, `Roki.C09_link_acceleration_partial`, `Roki.C09_work_energy_partial`, `Roki.C100_combine`, `Roki.C100_scale`, `Roki.C100_superposition`, `Roki.C101_frame_local`, `Roki.C101_load_local`, `Roki.C101_only_carried_move`, `Roki.C102_dynamics`, `Roki.C102_frames`, `Roki.C103_descent`, `Roki.C103_equation`, `Roki.C103_equation_stop`, `Roki.C103_stationary`, `Roki.C104_axes`, `Roki.C104_few_joints`, `Roki.C104_more_joints`, `Roki.C104_nonneg`, `Roki.C104_placement`, `Roki.C104_robot`, `Roki.C104_singular`, `Roki.C104_square`, `Roki.C105_damping`, `Roki.C105_refused`, `Roki.C105_sinks`, `Roki.C106_empty_fails`, `Roki.C106_file_fails`, `Roki.C106_zkci_partial`, `Roki.C106_zkcs`, `Roki.C106_zkcs_restores_partial`, `Roki.C107_material`, `Roki.C107_mesh`, `Roki.C107_names_fails`, `Roki.C107_same`, `Roki.C107_size_fails`, `Roki.C107_solid`, `Roki.C108_ball_partial`, `Roki.C108_leak_fails`, `Roki.C108_nearest`, `Roki.C108_round_fails`, `Roki.C108_vertices`, `Roki.C109_descent`, `Roki.C109_equation`, `Roki.C109_exact`, `Roki.C109_stop`, `Roki.C10_angular_jacobian`, `Roki.C110_dynamics`, `Roki.C110_frames`, `Roki.C110_sample`, `Roki.C111_chain_partial`, `Roki.C111_gp_fails`, `Roki.C111_gp_partial`, `Roki.C111_mshape_partial`, `Roki.C111_roundtrip_partial`, `Roki.C111_shared_fails`, `Roki.C112_fk_partial`, `Roki.C112_fk_stop`, `Roki.C112_init_fails`, `Roki.C113_forward`, `Roki.C113_history`, `Roki.C113_sample`, `Roki.C113_values`, `Roki.C114_forward`, `Roki.C114_history`, `Roki.C114_place`, `Roki.C114_sample`, `Roki.C114_values`, `Roki.C114_vertical`, `Roki.C115_base`, `Roki.C115_file`, `Roki.C115_isRot`, `Roki.C115_link`, `Roki.C115_order_fails`, `Roki.C115_plain`, `Roki.C115_prevails`, `Roki.C115_reset`, `Roki.C115_rot`, `Roki.C115_sample`, `Roki.C115_whole`, `Roki.C116_script`, `Roki.C116_urdf_partial`, `Roki.C116_ztk`, `Roki.C117_connection`, `Roki.C117_posture`, `Roki.C117_sample`, `Roki.C117_text`, `Roki.C117_wrench_sample`, `Roki.C118_aabb_fails`, `Roki.C118_axes_fails`, `Roki.C118_marks`, `Roki.C118_sample`, `Roki.C118_scene`, `Roki.C119_driven`, `Roki.C119_driven_applies`, `Roki.C119_file`, `Roki.C119_pendulum`, `Roki.C119_scara`, `Roki.C119_scara_real`, `Roki.C11_linear_jacobian`, `Roki.C120_applies`, `Roki.C120_cylin_fails`, `Roki.C120_prism_fails`, `Roki.C120_reciprocity_partial`, `Roki.C120_sign_partial`, `Roki.C120_superposition`, `Roki.C121_component`, `Roki.C121_conserved`, `Roki.C121_lagrange`, `Roki.C122_angular`, `Roki.C122_com`, `Roki.C122_linear`, `Roki.C122_statics`, `Roki.C123_step`, `Roki.C124_full_turns`, `Roki.C124_reach`, `Roki.C124_rigid`, `Roki.C124_sensitivity`, `Roki.C125_joint_in_place_fails`, `Roki.C125_mass_combine_fails`, `Roki.C126_alone`, `Roki.C126_defined`, `Roki.C126_gravity_shared`, `Roki.C126_interleaving`, `Roki.C126_schedules`, `Roki.C127_double`, `Roki.C127_forward_kinematics`, `Roki.C127_no_drift`, `Roki.C127_robot`, `Roki.C127_stored`, `Roki.C128_same_machine`, `Roki.C128_totals`, `Roki.C129_lock`, `Roki.C12_link_to_link_angular`, `Roki.C12_link_to_link_linear`, `Roki.C130_no_drift`, `Roki.C130_robot`, `Roki.C130_velocities`, `Roki.C131_inverse_dynamics`, `Roki.C131_robot`, `Roki.C132_double`, `Roki.C132_robot`, `Roki.C133_conserved_partial`, `Roki.C133_dissipated_partial`, `Roki.C133_power_partial`, `Roki.C134_airborne_partial`, `Roki.C134_euler_partial`, `Roki.C134_newton_partial`, `Roki.C135_prism_fails`, `Roki.C135_same_machine_partial`, `Roki.C136_least_constraint`, `Roki.C136_least_constraint_strict`, `Roki.C136_only_torques`, `Roki.C136_simulated_partial`, `Roki.C137_axes`, `Roki.C137_carried`, `Roki.C137_momental_iff`, `Roki.C137_surface`, `Roki.C138_jacobians`, `Roki.C138_robot`, `Roki.C138_velocity`, `Roki.C139_exact`, `Roki.C139_fine`, `Roki.C139_forward_partial`, `Roki.C139_forward_sample`, `Roki.C139_gravity_fails`, `Roki.C139_history`, `Roki.C139_jacobians`, `Roki.C139_mass_properties`, `Roki.C139_prism_fails`, `Roki.C139_sample`, `Roki.C139_tested_partial`, `Roki.C139_tolerance_fails`, `Roki.C139_values`, `Roki.C139_yaw`, `Roki.C139_zmp_fails`, `Roki.C13_com_jacobian`, `Roki.C140_half_turn_fails`, `Roki.C140_history`, `Roki.C140_jacobians`, `Roki.C140_sample`, `Roki.C140_symmetric`, `Roki.C140_values`, `Roki.C140_yaw_fails`, `Roki.C141_com`, `Roki.C141_energy`, `Roki.C141_forward`, `Roki.C141_inverse_fails`, `Roki.C141_inverse_partial`, `Roki.C141_sample`, `Roki.C141_velocity`, `Roki.C142_brake`, `Roki.C142_energy`, `Roki.C142_forward`, `Roki.C142_history`, `Roki.C142_inverse`, `Roki.C142_sample`, `Roki.C143_christoffel`, `Roki.C143_motion_sample`, `Roki.C143_power`, `Roki.C143_sample`, `Roki.C143_symmetric`, `Roki.C143_velocity_forces`, `Roki.C144_balance`, `Roki.C144_command`, `Roki.C144_first`, `Roki.C144_forward_partial`, `Roki.C144_motor`, `Roki.C144_resists`, `Roki.C144_sample`, `Roki.C144_size`, `Roki.C14_com_momentum_jacobian`, `Roki.C14_link_momentum_jacobian`, `Roki.C14_momentum_jacobian`, `Roki.C15_convex`, `Roki.C15_fk_com`, `Roki.C15_id_com`, `Roki.C15_weighted_mean`, `Roki.C16_body_combine`, `Roki.C16_body_combine_inplace`, `Roki.C16_combine_comm_assoc`, `Roki.C16_combine_moments`, `Roki.C17_xform`, `Roki.C18_root_force`, `Roki.C18_root_force_com`, `Roki.C18_root_wrench`, `Roki.C18_root_wrench_update`, `Roki.C19_power_balance`, `Roki.C19_power_balance_update`, `Roki.C20_zmp`, `Roki.C20_zmp_id`, `Roki.C21_yaw_torque_fails`, `Roki.C21_yaw_torque_partial`, `Roki.C22_energy`, `Roki.C22_energy_id`, `Roki.C22_nonneg`, `Roki.C23_angular_momentum`, `Roki.C23_angular_momentum_id`, `Roki.C23_transfer`, `Roki.C24_ext_wrench`, `Roki.C24_ext_wrench_exact`, `Roki.C25_lifo`, `Roki.C26_cylin_fails`, `Roki.C26_float_fails`, `Roki.C26_hooke_fails`, `Roki.C26_inverse_of_forward_partial`, `Roki.C26_prism_fails`, `Roki.C26_spher_fails`, `Roki.C27_add_ex_force`, `Roki.C27_history`, `Roki.C27_two`, `Roki.C28_pop_two`, `Roki.C28_push_pop`, `Roki.C28_two_wlist`, `Roki.C29_default_gravity_partial`, `Roki.C29_fails`, `Roki.C30_behaviour_partial`, `Roki.C30_empty`, `Roki.C30_friction_fails`, `Roki.C30_limits_fails`, `Roki.C30_lost`, `Roki.C30_pop_fails`, `Roki.C30_state`, `Roki.C31_fails`, `Roki.C32_axes`, `Roki.C32_dissipative`, `Roki.C33_never_exchanged_fails`, `Roki.C33_no_wrench`, `Roki.C33_rigid_fails`, `Roki.C33_shared_fails`, `Roki.C33_thresholds`, `Roki.C34_joint_all`, `Roki.C34_joint_reject`, `Roki.C34_joint_select`, `Roki.C34_motor`, `Roki.C34_types`, `Roki.C35_backEMF`, `Roki.C35_inertia`, `Roki.C35_limits`, `Roki.C36_identifiers`, `Roki.C36_lookup`, `Roki.C36_new_constraint`, `Roki.C36_no_joint_fails`, `Roki.C37_index_fails`, `Roki.C37_index_partial`, `Roki.C38_stale_index_fails`, `Roki.C38_step`, `Roki.C38_unregistered_fails`, `Roki.C38_unregistered_stays_partial`, `Roki.C39_report`, `Roki.C40_empty_fails`, `Roki.C40_equation`, `Roki.C40_memory`, `Roki.C40_velocity`, `Roki.C41_bind_partial`, `Roki.C41_momentum_fails`, `Roki.C41_report_partial`, `Roki.C42_decimal_partial`, `Roki.C42_digits_fails`, `Roki.C42_empty_fails`, `Roki.C42_print_partial`, `Roki.C43_links_partial`, `Roki.C43_pairs`, `Roki.C43_register`, `Roki.C43_same_link_fails`, `Roki.C43_static_fails`, `Roki.C44_defined`, `Roki.C44_unreg`, `Roki.C45_aabb`, `Roki.C45_gjk`, `Roki.C45_obb`, `Roki.C46_result_fails`, `Roki.C46_shapes_partial`, `Roki.C46_undefined_fails`, `Roki.C47_polyhedron`, `Roki.C47_trunc`, `Roki.C47_whole`, `Roki.C48_registers`, `Roki.C48_surface`, `Roki.C49_create`, `Roki.C49_first`, `Roki.C49_symm`, `Roki.C49_type`, `Roki.C50_chain`, `Roki.C50_forest`, `Roki.C50_twice`, `Roki.C51_order`, `Roki.C51_range_fails`, `Roki.C51_twice_fails`, `Roki.C51_union_partial`, `Roki.C52_axis_fails`, `Roki.C52_axis_partial`, `Roki.C52_com_fails`, `Roki.C52_inertia_fails`, `Roki.C52_mass_partial`, `Roki.C52_shapes_partial`, `Roki.C54_exact_partial`, `Roki.C54_half_turn_fails`, `Roki.C54_hooke_fails`, `Roki.C55_combine`, `Roki.C55_moved_body`, `Roki.C56_hooke_fails`, `Roki.C56_roundtrip_partial`, `Roki.C57_pop_partial`, `Roki.C57_repeat_fails`, `Roki.C58_minimum`, `Roki.C58_rest`, `Roki.C58_solveRate`, `Roki.C59_step`, `Roki.C60_again`, `Roki.C60_all_fails`, `Roki.C60_all_partial`, `Roki.C60_chainUnreg`, `Roki.C60_unreg`, `Roki.C61_agrees`, `Roki.C61_axes_fails`, `Roki.C61_axes_partial`, `Roki.C61_keep`, `Roki.C61_listed`, `Roki.C61_plane`, `Roki.C61_start`, `Roki.C62_gjk_fails`, `Roki.C62_obbVert_fails`, `Roki.C62_vert`, `Roki.C62_vol`, `Roki.C63_alias_fails`, `Roki.C63_read`, `Roki.C63_roundtrip`, `Roki.C63_unbound_fails`, `Roki.C63_write_fails`, `Roki.C64_shape_fails`, `Roki.C64_urdf_type_fails`, `Roki.C64_ztk_partial`, `Roki.C65_cat`, `Roki.C65_round_trip`, `Roki.C65_sub`, `Roki.C66_point_acceleration_partial`, `Roki.C66_point_velocity`, `Roki.C67_new_joint`, `Roki.C68_count`, `Roki.C68_count_history`, `Roki.C68_reset`, `Roki.C69_back_fails`, `Roki.C69_discarded_fails`, `Roki.C70_file_roundtrip_partial`, `Roki.C70_mass`, `Roki.C70_material_fails`, `Roki.C70_nomotor_fails`, `Roki.C71_cycle_fails`, `Roki.C71_first_fails`, `Roki.C71_parents_partial`, `Roki.C72_crash_fails`, `Roki.C72_motor_fails`, `Roki.C72_parent_fails`, `Roki.C72_rejected_iff_partial`, `Roki.C73_again`, `Roki.C73_two_steps`, `Roki.C74_limits_in_force`, `Roki.C75_com_acceleration_partial`, `Roki.C75_euler_partial`, `Roki.C75_newton_partial`, `Roki.C76_energy_partial`, `Roki.C76_momentum_partial`, `Roki.C77_attitude`, `Roki.C77_com`, `Roki.C77_position`, `Roki.C78_com`, `Roki.C78_l2l_attitude`, `Roki.C78_l2l_position_fails`, `Roki.C78_l2l_position_partial`, `Roki.C78_momentum`, `Roki.C78_reference`, `Roki.C78_world_attitude`, `Roki.C78_world_position`, `Roki.C78_zero_error`, `Roki.C79_config`, `Roki.C79_order_fails`, `Roki.C79_reject_fails`, `Roki.C79_stop`, `Roki.C80_empty_fails`, `Roki.C80_fk_log`, `Roki.C81_continuous`, `Roki.C81_id_log`, `Roki.C81_id_pose`, `Roki.C81_rates_partial`, `Roki.C81_time_fails`, `Roki.C81_zmp_fails`, `Roki.C82_hold_partial`, `Roki.C82_ik_log`, `Roki.C82_unregistered`, `Roki.C83_merge`, `Roki.C83_sequence_fails`, `Roki.C84_neutral_fails`, `Roki.C84_pose_partial`, `Roki.C84_unknown_fails`, `Roki.C85_child_fails`, `Roki.C85_converted_partial`, `Roki.C85_dynamics_fails`, `Roki.C85_floating_fails`, `Roki.C85_geometry_fails`, `Roki.C85_root_fails`, `Roki.C85_type_fails`, `Roki.C85_unknown_fails`, `Roki.C86_virtual_work`, `Roki.C87_inertia_affine`, `Roki.C87_inertia_energy`, `Roki.C87_inertia_semidefinite`, `Roki.C87_inertia_symmetric`, `Roki.C88_external_wrench`, `Roki.C89_gravity_torque`, `Roki.C90_time_scaling`, `Roki.C91_brep`, `Roki.C91_brepVert`, `Roki.C91_fast_fails`, `Roki.C91_fast_partial`, `Roki.C91_index_fails`, `Roki.C93_equation_of_motion_partial`, `Roki.C93_unique_partial`, `Roki.C94_denied_partial`, `Roki.C94_leak_fails`, `Roki.C94_life_partial`, `Roki.C94_order_fails`, `Roki.C95_inertia_definite`, `Roki.C95_inertia_regular`, `Roki.C96_computed_torque_partial`, `Roki.C96_equation_of_motion_partial`, `Roki.C96_regular`, `Roki.C96_unique_partial`, `Roki.C97_axis_fails`, `Roki.C97_axis_partial`, `Roki.C97_com_fails`, `Roki.C97_inertia_fails`, `Roki.C97_mass_partial`, `Roki.C97_placed_partial`, `Roki.C97_shapes`, `Roki.C98_clone`, `Roki.C98_clone_destroy`, `Roki.C98_destroy`, `Roki.C98_history_partial`, `Roki.C98_leak_fails`, `Roki.C98_nothing_lost_partial`, `Roki.C98_returned_iff`, `Roki.C99_destroy`, `Roki.C99_history_partial`, `Roki.C99_obb_fails`, `Roki.C99_obb_partial`, `Roki.C99_vertices_partial`
* Quot.sound, propext: `Roki.C105_output_fails`, `Roki.C111_files`, `Roki.C111_null_fails`, `Roki.C111_overwrite2_fails`, `Roki.C111_overwrite_fails`, `Roki.C112_id_partial`, `Roki.C112_id_stop`, `Roki.C112_mp_partial`, `Roki.C115_orders`, `Roki.C117_wrenches`, `Roki.C125_body_combine`, `Roki.C125_inertia`, `Roki.C125_joint_apart`, `Roki.C125_joint_in_place_partial`, `Roki.C125_mass_combine_partial`, `Roki.C125_mass_xform`, `Roki.C125_points_fails`, `Roki.C125_points_partial`, `Roki.C142_same`, `Roki.C16_org_inertia`, `Roki.C24_destroy`, `Roki.C25_stack`, `Roki.C26_degenerate`, `Roki.C33_broken_is_rigid_fails`, `Roki.C33_unbroken_is_free_fails`, `Roki.C35_driving`, `Roki.C35_driving_trq`, `Roki.C35_forward`, `Roki.C35_forward_cylin`, `Roki.C40_builtin`, `Roki.C41_momentum_ignored`, `Roki.C48_box`, `Roki.C53_nothing_fails`, `Roki.C55_momentum`, `Roki.C55_particles`, `Roki.C55_transfer`, `Roki.C64_urdf_root_fails`, `Roki.C74_last_write`, `Roki.C74_pose_kept`, `Roki.C74_total`, `Roki.C91_check`, `Roki.C92_closed`, `Roki.C92_exchange`, `Roki.C92_order`, `Roki.C92_vol_fails`, `Roki.C94_denied_fails`, `Roki.C94_offset_fails`, `Roki.C98_abi_lost_fails`, `Roki.C98_abi_twice_fails`, `Roki.C98_clone_complete`, `Roki.C98_denied_fails`, `Roki.C98_kinds`, `Roki.C99_denied_fails`
* propext: `Roki.C112_logs_fails`, `Roki.C112_mp_fails`, `Roki.C112_options_fails`, `Roki.C31_revol_partial`, `Roki.C31_state_kept`, `Roki.C31_store_fails`, `Roki.C35_input_only`
