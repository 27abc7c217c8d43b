{
 "C07": {
  "note": "False as stated: C07_violated gives the witness, C07_accepted_iff the exact set accepted, C07_partial what holds."
 },
 "C15": {
  "note": "False as stated: C15_violated. C15_value gives the exact value, C15_numbering_iff_palindrome when it is a numbering."
 },
 "C16": {
  "note": "False as stated: C16_violated. C16_partial covers callables insensitive to the order of the two groups, C16_no_args calls without extra arguments."
 },
 "C20": {
  "note": "False as stated: C20_violated. C20_defined_iff gives exactly when the counts are defined, C20_partial what holds."
 },
 "C25": {
  "note": "False as stated: C25_violated (Gauss-Lobatto, 6 to 9 points). C25_partial covers every other supported case."
 },
 "C28": {
  "note": "Exact symmetry is false for the 8-point Gauss-Lobatto rule: C28_violated. C28_partial covers positivity, the sum, and symmetry elsewhere."
 },
 "C31": {
  "note": "False for coordinates: C31_violated. C31_weights_partial covers weights."
 },
 "C51": {
  "note": "False as stated for LinearTransform: C51_jacobian_violated. C51_outputs_partial gives the exact dependence on the initial contents, and the property for both scalings."
 },
 "C55": {
  "note": "False as stated: C55_inverseJacobian_2d_violated, for every 2-D transform and configuration. C55_jacobian_2d_partial covers jacobian."
 },
 "C56": {
  "note": "False as stated: C56_setData_violated. C56_setData_partial gives what is stored, and exactly for which numbers of support points the rows are distinct."
 },
 "C58": {
  "note": "The overload with data does not compile in HIP builds (C58_hip_violated), and a kernel that is never started goes unnoticed (C58_launch_failure_violated). The other theorems cover host and CUDA builds, and the overload without data in all builds."
 },
 "C59": {
  "note": "Device branch formats the message without its arguments: C59_device_format_violated. C59_terminates_partial says exactly when a violated assertion just terminates."
 },
 "C69": {
  "note": "False for operator[] with 64-bit indices: C69_bracket_violated. C69_paren_partial covers operator(), C69_bracket_partial and C69_bracket_wraps say exactly what operator[] does."
 },
 "C71": {
  "note": "The length is not checked: C71_view_size_violated. C71_view_partial says exactly what is accepted and which accesses are defined."
 },
 "C72": {
  "note": "False for ScalarView: C72_scalarView_violated. C72_aliases_partial covers the other aliases."
 },
 "C84": {
  "note": "False as stated: C84_violated, with the computed result in C84_overflow. C84_partial covers entries of moderate size."
 },
 "C81": {
  "note": "Every operation is done in one format. C88 shows that this is faithful for float too."
 },
 "C82": {
  "note": "Every operation is done in one format. Faithful for double; for float as C++ evaluates it see C87 and C88."
 },
 "C85": {
  "note": "False as stated: C85_violated (4-point Lobatto rule in double). The partial theorems cover everything else; C85_close_partial bounds the difference."
 },
 "C86": {
  "note": "False as stated: C86_violated. The partial theorems give what holds: Gauss coordinates, weights other than 8-point Lobatto in double, first point always, last point up to 41 or 49 points, sizes 2^k+1."
 },
 "C90": {
  "note": "False as stated: C90_violated (double, six to nine Lobatto points). C90_accurate_partial covers float, and double up to five points; C90_literals bounds the error of all literals."
 },
 "C92": {
  "note": "False as stated: C92_forRange_violated (every type but int), C92_linearIndex_violated. C92_linearIndex_partial and C92_linearIndex_stride say when linearIndex gives the number."
 },
 "C96": {
  "note": "False as stated: C96_violated. The C96_..._partial theorems say what the loop does and which bodies behave as expected."
 },
 "C98": {
  "note": "Violated: unsigned and narrow types wrap silently. Proved: all three are exact if b^E resp. N! fits; exact description of what pow and factorial return."
 },
 "C99": {
  "note": "Violated: most indices out of range are accepted. Proved: what is returned instead, and that bases of order 0 and those on 5, 7 and 9 Lobatto points reject them."
 },
 "C100": {
  "note": "Orders 1 to 8, since the shipped tables end there for Lobatto points; equally spaced points of higher order are not covered."
 },
 "C101": {
  "note": "Complements C83 (no exceptions, but entries bounded below) and C84 (violations without bounds on the sizes)."
 },
 "C102": {
  "note": "Violated for the first row. Proved: the second and third row are fine, and what is left in the first."
 },
 "C103": {
  "note": "C103_line is the one-dimensional statement, C103_value and C103_gradient those for elements; C103_multilinear is the case of order 1; C103_supported_elements shows that every shipped spacing meets the hypothesis."
 },
 "C104": {
  "note": "Exact arithmetic with the decimals of the code, compile-time accessors."
 },
 "C106": {
  "note": "Violated for headers that include each other (C106_violated). C106_partial: the script runs for ever exactly if a needed header includes itself, directly or indirectly."
 },
 "C107": {
  "note": "Violated for the configuration header and after unresolvable includes. C107_partial: all lines are there, in order, and no quoted include is left, if all includes can be resolved; the configuration header is not counted."
 },
 "C108": {
  "note": "Violated: the output directory is not used, the original headers are overwritten, and their includes remain comments. C108_partial: the parts are written back to the places in their marks and nothing else changes."
 },
 "C110": {
  "note": "Partial because the code violates it: C110_effect_partial, C110_finishes_partial and C110_kept_partial hold for all inputs; the three violations are concrete runs."
 },
 "C111": {
  "note": "Partial because the code violates it: C111_split_partial says exactly what happens for arguments of plain characters and spaces; the violations are concrete runs."
 },
 "C112": {
  "note": "The macros, what is compiled, and when configuring fails are proved for all settings. The version of CUDA is right only if CMake knows it already, and camp is linked only with BLT; both failures are proved with witnesses."
 },
 "C113": {
  "note": "The dictionaries of compare_config_files are proved exact. The printed report leaves out settings that only one file has, which is proved with a witness; values with quotes are read wrongly, also with a witness."
 },
 "C114": {
  "note": "One-to-one in every dimension; the Jacobian and the volume in three, where the code has inverseJacobian. C114_sharp: the bound cannot be improved."
 },
 "C115": {
  "note": "Violated in five ways, see DESIGN.md. Proved: the exit status is that of the first failing command; for one kind of job all commands of the tasks were run; the build jobs succeed exactly if CMake, make and all unit tests do. Not modelled: the race between `tee` and `cat` in the code checks (the number of lines counted is any number)."
 },
 "C116": {
  "note": "Two accesses that could be next to each other in some interleaving, to the same memory location, one a write, make the outcome undefined. There are no locks or atomics in the model. The second example shows that the hypothesis is needed: an array element and the same element through a slice race. C116_conflict is the converse for accesses that are next."
 },
 "C117": {
  "note": "The tolerance of the first theorem is that of C29/C30 times the coefficients of the derivative of the product along the lines. In the second theorem the table of all 8 operators is checked in rational arithmetic."
 },
 "C118": {
  "note": "Partial because the code violates the property: the verdict leaves out the coverage job. C118_partial says exactly what the verdict depends on; C118_builds, C118_unit_tests and C118_code_checks say what a good verdict means in the containers. C118_configurations lists what the matrix covers, C118_coverage says what success of the coverage job means."
 },
 "C119": {
  "note": "Partial because the code violates the property: NPROC is not exported. C119_partial is the rest, C119_jobs the number of jobs when NPROC is in the environment, and C119_violated shows that without it there is never a limit. C119_matrix gives the number of jobs in the builds of the matrix."
 },
 "C120": {
  "note": "The bound is the tolerance of the rules times the coefficients of the polynomials u * adjugate; for hexahedra it is given in terms of the sizes of the vertices and nodal values. Faces are taken in the coordinates of the parent cube: a face of a curved cell is the image of a face of the cube."
 },
 "C121": {
  "note": "Holds where no directory from the root to the source directory has buil, blt or camp in its name, as /tmp/Shiva in the CI. Path names with semicolons are not modelled."
 },
 "C122": {
  "note": "Holds but for ENABLE_FIND_MPI of LLNL/tioga-cce-15.cmake. C122_unit_tests removes the assumption of C118_unit_tests about the host configuration."
 },
 "C123": {
  "note": "Holds if tee has copied everything when the shell goes on, for fewer than 256 complete lines. In every schedule a failing make fails the test, and without a file from an earlier run there is no false alarm."
 },
 "C124": {
  "note": "Holds for all lists of the 24 headers without Shiva.hpp and namespaceDocumentation.hpp (an #error unless cppcheck runs; C124_documentation), for libraries that declare what those in use do, and without pmpl.hpp for HIP alone. Members of classes and overloads are not modelled."
 },
 "C125": {
  "note": "The sum over the quadrature points is the reader's own loop and is taken exactly; everything the library computes is in float or double."
 },
 "C126": {
  "note": "Violated from C++20 on, see DESIGN.md section 4. The partial theorems cover the standards before C++20 completely, and for later ones all headers and functions that do not lead to the two broken branches."
 },
 "C127": {
  "note": "Violated, see DESIGN.md section 4. What CMake generates (ShivaTargets.cmake, ShivaConfigVersion.cmake) is modelled after CMake's documentation, since the files are not in the repository; the directory for libraries is assumed to be relative."
 },
 "C128": {
  "note": "Violated for Gauss-Lobatto bases of higher order, see DESIGN.md section 4. C128_partial is the claim for exactly the types, families and orders for which it holds (in any number of dimensions); C128_violated shows that it fails for all others. C128_zero and C128_local hold for all."
 },
 "C129": {
  "note": "Violated for orders 3 to 8, see DESIGN.md section 4. C129_partial and C129_shape_partial prove it for orders 1 and 2, at every coordinate including infinities and NaN; the sign of the derivative is proved where the derivative is finite. Zeros of both signs are identified by the model."
 },
 "C130": {
  "note": "Violated for directions other than the last and for orders above 1, see DESIGN.md section 4. C130_partial proves it for the last direction when its order is 1, with all families and any orders in the other directions, any dimension and any nodal values (where the derivative is finite); C130_finite_partial adds that it is finite with up to three dimensions inside the parent element."
 },
 "C131": {
  "note": "Violated by the rounding error, see DESIGN.md section 4. C131_monotone_partial proves that larger nodal values never give smaller interpolated values, C131_sign_partial that signs are kept, both in any dimension; C131_line_partial that on lines bounds that are zero or powers of two are kept exactly; C131_excess_partial bounds the excess in up to three dimensions."
 },
 "C132": {
  "note": "The exceptions are those of the floating-point model: a result is compared unless an overflow, underflow, division by zero or invalid operation occurred on the way to it. The inverse Jacobian is for three-dimensional cells, the only ones it accepts."
 },
 "C133": {
  "note": "Violated by the rounding error, see DESIGN.md section 4. C133_partial and C133_gradient_partial prove that exchanging the last two directions is exact for shape functions and their gradients, for any bases and data; C133_square_partial says that on squares this is every numbering; C133_difference_partial bounds the difference of interpolated values for any numbering of shipped elements in up to three dimensions."
 },
 "C134": {
  "note": "C134_value, C134_gradient and C134_perturbation in exact arithmetic in any dimension; C134_value_float and C134_gradient_float in float and double up to three dimensions, with nodal values up to 2^56; C134_value_reached and C134_gradient_reached show that the factors are nearly reached; C134_equal_growth gives upper and lower bounds for equally spaced points of every order."
 },
 "C135": {
  "note": "C135_value and C135_gradient on the parent cell, C135_box for a function on a box, C135_halving for the rate of convergence. The function and its derivatives are real; the nodal values are any finite numbers within the stated error of it."
 },
 "C136": {
  "note": "Violated by the rounding error for boxes that are small compared with their distance from the origin, see DESIGN.md section 4. C136_exact is the claim without roundings; C136_partial and C136_inverse_partial prove it in float and double with an explicit condition on size and distance."
 },
 "C137": {
  "note": "Violated for every finite set of points, see DESIGN.md section 4. C137_partial proves that bounds of the 27 control values are bounds of the determinant in the whole cell, C137_float_partial that computed control values above an explicit rounding error guarantee a valid cell, C137_square_partial the claim for quadrilaterals and their vertices."
 },
 "C138": {
  "note": "C138_gradient bounds the error of the physical gradient of an arbitrary field, C138_patch_test specialises to linear fields with an error in the nodal values. The sum of products is not part of the library and is taken exactly."
 },
 "C139": {
  "note": "C139_parent for values with an error, C139_interpolated for values interpolated by the library, C139_cell for cells with the determinants inverseJacobian returns. The sum over the quadrature points is not part of the library and is taken exactly."
 },
 "C140": {
  "note": "C140_value, C140_gradient, C140_jacobian, C140_determinant for data in units, C140_lattice and C140_check for cells on a lattice, C140_box for boxes. The finite tables evaluated by the kernel range over the numbers of binary places and the three build switches, not over data: the data are covered by tags. The limits are sufficient, not claimed to be sharp."
 },
 "C141": {
  "note": "C141_violated: determinants of different sign for a small box far from the origin. C141_exact: equality for data with few digits. C141_partial and C141_jacobian_partial: bounds of the differences, relative to the coordinates instead of the results, which is what is missing."
 },
 "C142": {
  "note": "C142_value, C142_gradient, C142_jacobian, C142_inverse, C142_inverse_carray, C142_inverseJacobian, C142_scaling. In the gradient only the values at the support points are covered, because the derivative of a linear basis does not use the coordinate. Column i of an inverse and the inverse of a Scaling may be finite (1/infinity is zero), which is why the statement is about the determinant."
 },
 "C143": {
  "note": "C143_value, C143_gradient, C143_points, C143_jacobian, C143_inverse, C143_inverse_carray, C143_inverseJacobian, C143_scaling_same for independence of signs; the last parts of the inverse theorems, C143_scaling and C143_uniform for division by zero. With C143 the theorems about Model/Float (which drops signs of zeros) carry over to arithmetic with signed zeros."
 },
 "C144": {
  "note": "C144_violated and C144_inverseJacobian_violated: exchanges that move the last row or the first column change determinants by more than the sign. The _partial theorems: the exchanges that keep them in place are exact, and the differences of the others are at most twice the bound of C101. C144_exchanges: exactly which exchanges are respected. C144_jacobian is the full statement for Jacobians."
 },
 "C145": {
  "note": "C145_violated and C145_plate_violated: determinants other than zero for a repeated first column and for a plate without thickness. The _partial theorems: exact zeros for the other kinds of dependence. C145_rows: rows of Jacobians are the gradients of the coordinates."
 },
 "C146": {
  "note": "C146_violated and C146_constant_violated: equal rows and constants are not recognised exactly if products are fused. C146_inverse_partial: rows and columns of zeros are. The other theorems are complete."
 },
 "C147": {
  "note": "C147_violated: mirrored neighbours can differ. C147_neighbours_partial: neighbours that number the face in the same order agree in values and tangential derivatives, and their Jacobians in the columns along the face (C147_tangents_partial). C147_difference_partial: the values of mirrored neighbours differ by no more than twice the rounding error of C100. C147_trace and C147_end_points are complete."
 },
 "C148": {
  "note": "C148_quadrilateral (vertex check, positivity, one-to-one, image), C148_area, C148_neighbours in two dimensions; C148_vertical, C148_vertical_volume and C148_vertical_neighbours for hexahedra with vertical edges. Exact arithmetic; nodes at -1 and 1 as for the shipped spacings in exact arithmetic."
 },
 "C149": {
  "note": "C149_inverse, C149_inverse_carray and C149_inverseJacobian; C149_diagonal evaluates the bound on the diagonal."
 },
 "C150": {
  "note": "C150_violated: in float and double the value may fall in the last place although the nodal values increase. C150_exact and C150_order_two are complete. C150_shape_partial: shape functions are monotone. C150_sign_partial: fields with values <= 0 on the lower and >= 0 on the upper face are monotone. C150_error_partial: any fall is at most twice the rounding error."
 },
 "C151": {
  "note": "C151_violated: in float and double the first derivative on a square may be negative although all nodal differences are positive. C151_exact is complete. C151_last_partial: the sign is right in the last direction, any dimension (on a line that is everything). C151_jacobian_partial: the same for the last column of the Jacobian. C151_error_partial: all directions, up to the rounding error."
 },
 "C152": {
  "note": "C152_shape, C152_sign, C152_errors, C152_compare, C152_axis_shape and C152_axis. Results in real arithmetic with a rounding function: overflow is outside. If the two results that are compared are computed with different fusing, they need not be in order (C146)."
 },
 "C153": {
  "note": "C153_field, C153_back, C153_rounded, C153_position, C153_jacobian, C153_determinant and C153_split."
 },
 "C154": {
  "note": "C154_face, C154_rounded, C154_float and C154_neighbours."
 },
 "C155": {
  "note": "C155_exact, C155_float, C155_shared and C155_jacobian."
 },
 "C156": {
  "note": "C156_exact, C156_necessary and C156_float."
 },
 "C157": {
  "note": "C157_violated: inside of elements a derivative may change when a constant is added, in float and double. C157_exact and C157_cell_exact are complete. C157_edge_partial: the derivative along an edge does not change. C157_vertex_partial: Jacobian, determinant and inverse at the vertices of a hexahedron do not change."
 },
 "C158": {
  "note": "Complete. Stopped means aborted on the host; on a device a failed check is itself undefined (C59)."
 },
 "C159": {
  "note": "Complete for exact arithmetic; block meshes only."
 },
 "C160": {
  "note": "Complete for exact arithmetic; block meshes, variables of the cells' own elements."
 },
 "C161": {
  "note": "Complete for exact arithmetic; all directions of a cell have the same nodes."
 },
 "C162": {
  "note": "Complete for exact arithmetic; block meshes with flat faces."
 },
 "C163": {
  "note": "Complete for exact arithmetic."
 }
}