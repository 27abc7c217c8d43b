import Verif.Spec.HostScript
import Verif.Spec.ConfigBuild

/-!
# The host configurations in `hostconfigs/`

Simplifications: `message`, and `site_name`, whose result is not used, are left out.
-/

namespace Verif.HostConfig

open Verif.Spec (Text HostCommand Loc render BuildType BuildRequest)

/-- hostconfigs/environment.cmake 1-27. -/
def environment : List HostCommand :=
  [.cache t!"CMAKE_C_COMPILER" [.env t!"CC"] true,
   .cache t!"CMAKE_CXX_COMPILER" [.env t!"CXX"] true,
   .cache t!"ENABLE_FORTRAN" [.lit t!"OFF"] true,
   .cache t!"ENABLE_MPI" [.lit t!"OFF"] true,
   .cache t!"ENABLE_GTEST_DEATH_TESTS" [.lit t!"ON"] true,
   .cache t!"ENABLE_CUDA" [.env t!"ENABLE_CUDA"] true,
   .cond t!"ENABLE_CUDA" false
       [.cache t!"CUDA_TOOLKIT_ROOT_DIR" [.env t!"CUDA_TOOLKIT_ROOT_DIR"] true,
        .cond t!"CUDA_TOOLKIT_ROOT_DIR" true
            [.cache t!"CUDA_TOOLKIT_ROOT_DIR" [.lit t!"/usr/local/cuda"] true],
        .cache t!"CMAKE_CUDA_ARCHITECTURES" [.env t!"CMAKE_CUDA_ARCHITECTURES"] true,
        .cache t!"CMAKE_CUDA_HOST_COMPILER" [.var t!"CMAKE_CXX_COMPILER"] false,
        .cache t!"CMAKE_CUDA_COMPILER" [.var t!"CUDA_TOOLKIT_ROOT_DIR", .lit t!"/bin/nvcc"] false,
        .cache t!"CMAKE_CUDA_FLAGS" [.lit t!"-restrict --expt-extended-lambda --expt-relaxed-constexpr ",
        .lit t!"-Werror cross-execution-space-call,reorder,deprecated-declarations"] false],
   .cache t!"SHIVA_ENABLE_BLT" [.lit t!"ON"] true,
   .cache t!"SHIVA_ENABLE_UNIT_TESTS" [.lit t!"ON"] true,
   .cache t!"SHIVA_ENABLE_BOUNDS_CHECK" [.lit t!"ON"] true]

/-- hostconfigs/LLNL/lassen-cuda-11-base.cmake 1-12. -/
def lassenBase : List HostCommand :=
  [.cache t!"ENABLE_CUDA" [.lit t!"ON"] false,
   .cache t!"CUDA_TOOLKIT_ROOT_DIR" [.lit t!"/usr/tce/packages/cuda/cuda-11.8.0"] false,
   .cache t!"CMAKE_CUDA_HOST_COMPILER" [.var t!"CMAKE_CXX_COMPILER"] false,
   .cache t!"CMAKE_CUDA_COMPILER" [.var t!"CUDA_TOOLKIT_ROOT_DIR", .lit t!"/bin/nvcc"] false,
   .cache t!"CMAKE_CUDA_ARCHITECTURES" [.lit t!"70"] false,
   .cache t!"CMAKE_CUDA_STANDARD" [.lit t!"17"] false,
   .cache t!"CMAKE_CUDA_FLAGS" [.lit t!"-restrict --expt-extended-lambda --expt-relaxed-constexpr ",
        .lit t!"-Werror cross-execution-space-call,reorder,deprecated-declarations"] false]

/-- hostconfigs/LLNL/lassen-clang-13-cuda-11.cmake 1-12. -/
def lassenClang : List HostCommand :=
  [.cache t!"CONFIG_NAME" [.lit t!"lassen-clang-13-cuda-11"] false,
   .assign t!"COMPILER_DIR" [.lit t!"/usr/tce/packages/clang/clang-13.0.1-gcc-8.3.1"],
   .cache t!"CMAKE_C_COMPILER" [.var t!"COMPILER_DIR", .lit t!"/bin/clang"] false,
   .cache t!"CMAKE_CXX_COMPILER" [.var t!"COMPILER_DIR", .lit t!"/bin/clang++"] false,
   .cache t!"CMAKE_CXX_FLAGS_RELEASE" [.lit t!"-O3 -DNDEBUG -mcpu=powerpc64le -mtune=powerpc64le"] false,
   .cache t!"CMAKE_CXX_FLAGS_RELWITHDEBINFO" [.lit t!"-g ", .var t!"CMAKE_CXX_FLAGS_RELEASE"] false,
   .cache t!"CMAKE_CXX_FLAGS_DEBUG" [.lit t!"-O0 -g"] false] ++
  lassenBase

/-- hostconfigs/LLNL/lassen-gcc-8-cuda-11.cmake 1-12. -/
def lassenGcc : List HostCommand :=
  [.cache t!"CONFIG_NAME" [.lit t!"lassen-gcc-8-cuda-11"] false,
   .assign t!"COMPILER_DIR" [.lit t!"/usr/tce/packages/gcc/gcc-8.3.1"],
   .cache t!"CMAKE_C_COMPILER" [.var t!"COMPILER_DIR", .lit t!"/bin/gcc"] false,
   .cache t!"CMAKE_CXX_COMPILER" [.var t!"COMPILER_DIR", .lit t!"/bin/g++"] false,
   .cache t!"CMAKE_CXX_FLAGS_RELEASE" [.lit t!"-O3 -DNDEBUG -mcpu=power9 -mtune=power9"] false,
   .cache t!"CMAKE_CXX_FLAGS_RELWITHDEBINFO" [.lit t!"-g ", .var t!"CMAKE_CXX_FLAGS_RELEASE"] false,
   .cache t!"CMAKE_CXX_FLAGS_DEBUG" [.lit t!"-O0 -g"] false] ++
  lassenBase

/-- hostconfigs/LLNL/quartz-base.cmake 1-2. -/
def quartzBase : List HostCommand :=
  [.cache t!"ENABLE_FORTRAN" [.lit t!"OFF"] false,
   .cache t!"ENABLE_CUDA" [.lit t!"OFF"] false]

/-- hostconfigs/LLNL/quartz-clang-14.cmake 1-15. -/
def quartzClang : List HostCommand :=
  [.cache t!"CONFIG_NAME" [.lit t!"quartz-clang-14"] false,
   .assign t!"COMPILER_DIR" [.lit t!"/usr/tce/packages/clang/clang-14.0.6-magic"],
   .cache t!"CMAKE_C_COMPILER" [.var t!"COMPILER_DIR", .lit t!"/bin/clang"] false,
   .cache t!"CMAKE_C_FLAGS_RELEASE" [.lit t!"-O3 -DNDEBUG -march=native -mtune=native"] false,
   .cache t!"CMAKE_CXX_COMPILER" [.var t!"COMPILER_DIR", .lit t!"/bin/clang++"] false,
   .cache t!"CMAKE_CXX_FLAGS_RELEASE" [.lit t!"-O3 -DNDEBUG -march=native -mtune=native"] false] ++
  quartzBase

/-- hostconfigs/LLNL/quartz-gcc-12.cmake 1-13. -/
def quartzGcc : List HostCommand :=
  [.cache t!"CONFIG_NAME" [.lit t!"quartz-gcc-12"] false,
   .assign t!"COMPILER_DIR" [.lit t!"/usr/tce/packages/gcc/gcc-12.1.1-magic"],
   .cache t!"CMAKE_C_COMPILER" [.var t!"COMPILER_DIR", .lit t!"/bin/gcc"] false,
   .cache t!"CMAKE_C_FLAGS_RELEASE" [.lit t!"-O3 -DNDEBUG -march=native -mtune=native"] false,
   .cache t!"CMAKE_CXX_COMPILER" [.var t!"COMPILER_DIR", .lit t!"/bin/g++"] false,
   .cache t!"CMAKE_CXX_FLAGS_RELEASE" [.lit t!"-O3 -DNDEBUG -march=native -mtune=native"] false] ++
  quartzBase

/-- hostconfigs/LLNL/tioga-base.cmake 1-22. -/
def tiogaBase : List HostCommand :=
  [.cache t!"ENABLE_MPI" [.lit t!"ON"] true,
   .cache t!"ENABLE_FIND_MPI" [.lit t!"ON"] true,
   .cache t!"ENABLE_HIP" [.lit t!"ON"] true,
   .cache t!"ENABLE_WARNINGS_AS_ERRORS" [.lit t!"FALSE"] true,
   .cache t!"ENABLE_GTEST_DEATH_TESTS" [.lit t!"OFF"] false,
   .cache t!"gtest_disable_pthreads" [.lit t!"ON"] false,
   .cache t!"ENABLE_FIND_MPI" [.lit t!"FALSE"] false]

/-- hostconfigs/LLNL/tioga-cce-15.cmake 1-19. -/
def tioga : List HostCommand :=
  [.cache t!"CONFIG_NAME" [.lit t!"tioga-cce@15.0.1"] false] ++
  tiogaBase ++
  [.assign t!"CRAYPE_VERSION" [.lit t!"2.7.23"],
   .cache t!"CMAKE_C_COMPILER" [.lit t!"/opt/cray/pe/craype/", .var t!"CRAYPE_VERSION", .lit t!"/bin/cc"] false,
   .cache t!"CMAKE_CXX_COMPILER" [.lit t!"/opt/cray/pe/craype/", .var t!"CRAYPE_VERSION", .lit t!"/bin/CC"] false,
   .cache t!"CMAKE_Fortran_COMPILER" [.lit t!"/opt/cray/pe/craype/", .var t!"CRAYPE_VERSION", .lit t!"/bin/ftn"] false,
   .cache t!"ENABLE_CLANG_HIP" [.lit t!"ON"] true,
   .cache t!"HIP_VERSION_STRING" [.lit t!"5.4.3"] false,
   .cache t!"HIP_ROOT" [.lit t!"/opt/rocm-", .var t!"HIP_VERSION_STRING"] false,
   .cache t!"ROCM_PATH" [.var t!"HIP_ROOT"] false,
   .cache t!"CMAKE_HIP_ARCHITECTURES" [.lit t!"gfx90a"] true,
   .cache t!"CMAKE_CXX_FLAGS" [.lit t!"-fgpu-rdc"] true,
   .cache t!"CMAKE_CXX_LINK_FLAGS" [.lit t!"-fgpu-rdc --hip-link"] true]

/-- hostconfigs/TTE/maple_rocky9.cmake 1-24. -/
def maple : List HostCommand :=
  [.cache t!"CONFIG_NAME" [.lit t!"maple_rocky9"] false,
   .assign t!"COMPILER_DIR" [.lit t!"/opt/rh/gcc-toolset-13/root/"],
   .cache t!"CMAKE_C_COMPILER" [.var t!"COMPILER_DIR", .lit t!"/bin/gcc"] false,
   .cache t!"CMAKE_CXX_COMPILER" [.var t!"COMPILER_DIR", .lit t!"/bin/g++"] false,
   .cache t!"CMAKE_CXX_FLAGS_RELEASE" [.lit t!"-O3 -DNDEBUG -mtune=native -march=native"] false,
   .cache t!"CMAKE_CXX_FLAGS_RELWITHDEBINFO" [.lit t!"-g ", .var t!"CMAKE_CXX_FLAGS_RELEASE"] false,
   .cache t!"CMAKE_CXX_FLAGS_DEBUG" [.lit t!"-O0 -g"] false,
   .cache t!"ENABLE_CUDA" [.lit t!"ON"] false,
   .cache t!"CUDA_TOOLKIT_ROOT_DIR" [.lit t!"/hrtc/apps/cuda/12.6.20/aarch64/rocky9"] false,
   .cache t!"CMAKE_CUDA_HOST_COMPILER" [.var t!"CMAKE_CXX_COMPILER"] false,
   .cache t!"CMAKE_CUDA_COMPILER" [.var t!"CUDA_TOOLKIT_ROOT_DIR", .lit t!"/bin/nvcc"] false,
   .cache t!"CMAKE_CUDA_ARCHITECTURES" [.lit t!"90"] false,
   .cache t!"CMAKE_CUDA_STANDARD" [.lit t!"17"] false,
   .cache t!"CMAKE_CUDA_FLAGS" [.lit t!"-restrict --expt-extended-lambda --expt-relaxed-constexpr ",
        .lit t!"-Werror cross-execution-space-call,reorder,deprecated-declarations"] false,
   .cache t!"SHIVA_ENABLE_CAMP" [.lit t!"OFF"] true]

/-- hostconfigs/apple/macOS_base.cmake 1-34. -/
def macBase : List HostCommand :=
  [.cache t!"CMAKE_C_COMPILER" [.lit t!"/usr/bin/clang"] false,
   .cache t!"CMAKE_CXX_COMPILER" [.lit t!"/usr/bin/clang++"] false,
   .cache t!"ENABLE_FORTRAN" [.lit t!"OFF"] true,
   .cache t!"ENABLE_MPI" [.lit t!"OFF"] false,
   .cache t!"ENABLE_GTEST_DEATH_TESTS" [.lit t!"ON"] true,
   .cache t!"ENABLE_CUDA" [.lit t!"OFF"] true,
   .cache t!"ENABLE_OPENMP" [.lit t!"OFF"] true,
   .cache t!"ENABLE_DOXYGEN" [.lit t!"ON"] true,
   .cache t!"DOXYGEN_EXECUTABLE" [.var t!"HOMEBREW_DIR", .lit t!"/bin/doxygen"] true,
   .cache t!"CPPCHECK_EXECUTABLE" [.var t!"HOMEBREW_DIR", .lit t!"/bin/cppcheck"] true,
   .cache t!"CLANGTIDY_EXECUTABLE" [.var t!"HOMEBREW_DIR", .lit t!"/opt/llvm/bin/clang-tidy"] true,
   .cache t!"ENABLE_COVERAGE" [.lit t!"OFF"] true,
   .cache t!"GCOV_EXECUTABLE" [.lit t!"/usr/bin/gcov"] true,
   .cache t!"LCOV_EXECUTABLE" [.var t!"HOMEBREW_DIR", .lit t!"/bin/lcov"] true,
   .cache t!"SHIVA_ENABLE_BLT" [.lit t!"ON"] true,
   .cache t!"SHIVA_ENABLE_UNIT_TESTS" [.lit t!"ON"] true,
   .cache t!"SHIVA_ENABLE_BOUNDS_CHECK" [.lit t!"ON"] true]

/-- hostconfigs/apple/macOS_arm.cmake 1-4. -/
def macArm : List HostCommand :=
  [.assign t!"HOMEBREW_DIR" [.lit t!"/opt/homebrew"],
   .assign t!"CONFIG_NAME" [.lit t!"macOS_arm"]] ++
  macBase

/-- hostconfigs/apple/macOS_x86.cmake 1-4. -/
def macX86 : List HostCommand :=
  [.assign t!"HOMEBREW_DIR" [.lit t!"/usr/local"],
   .assign t!"CONFIG_NAME" [.lit t!"macOS_x86"]] ++
  macBase

/-- The files of hostconfigs/ that are meant to be given to `config-build.py`: all but the four included ones
(LLNL/lassen-cuda-11-base.cmake, LLNL/quartz-base.cmake, LLNL/tioga-base.cmake, and apple/macOS_base.cmake). -/
def hostConfigs : List (Text × List HostCommand) :=
  [(t!"environment.cmake", environment),
   (t!"LLNL/lassen-clang-13-cuda-11.cmake", lassenClang),
   (t!"LLNL/lassen-gcc-8-cuda-11.cmake", lassenGcc),
   (t!"LLNL/quartz-clang-14.cmake", quartzClang),
   (t!"LLNL/quartz-gcc-12.cmake", quartzGcc),
   (t!"LLNL/tioga-cce-15.cmake", tioga),
   (t!"TTE/maple_rocky9.cmake", maple),
   (t!"apple/macOS_arm.cmake", macArm),
   (t!"apple/macOS_x86.cmake", macX86)]

/-- The host configurations (hostconfigs/) of a checkout, by their absolute names. -/
def scriptAt (source : Loc) (file : Text) : Option (List HostCommand) :=
  (hostConfigs.find? fun c => file = render source ++ t!"/hostconfigs/" ++ c.1).map (·.2)

/-- ci_build_and_test_in_container.sh 30-43: how `config-build.py` is called. -/
def containerRequest (hostConfig : Text) (buildtype : BuildType) (coverage : Bool) : BuildRequest :=
  { buildpath := t!"/tmp/build", installpath := t!"/tmp/install", buildtype, eclipse := false, xcode := false,
    exportcompilercommands := false, hostconfig := hostConfig, ninja := false, graphviz := false,
    others := [t!"-DENABLE_COVERAGE:BOOL=" ++ if coverage then t!"ON" else t!"OFF"] }

end Verif.HostConfig
