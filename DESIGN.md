# Formal model of PyGRT: design

Source under study: the C core of PyGRT, `/repo/pygrt/C_extension/{src,include}`, at the pinned commit. The code is read as text and never
run. Everything below is about a hand-written Lean 4 model in `lean/Verif`. Each definition of the model cites the file and the lines it
models; paths in citations are below `pygrt/C_extension/src` unless written out.

## 1. Trusted base

* The kernel of Lean 4.33.0, and the Mathlib definitions that occur in theorem statements (`ℝ`, `ℂ`, `Matrix`, `HasDerivAt`,
  `intervalIntegral`, `List`, `Finset`, …).
* The axioms `propext`, `Classical.choice`, `Quot.sound`, at most; section 6 gives them theorem by theorem. No axioms of our own, no `sorry`,
  `admit`, `native_decide` or `bv_decide`. `decide +kernel` is used for concrete cases and for statements about finitely many values; it is
  checked by the kernel.
* The reading of the C code. The tie between model and code is the citation on each definition and the comment that says where it is
  simpler than the code. Nothing checks this tie by machine.
* The contracts of external functions, each stated with the definition that uses it: `qsort` (any permutation sorted by the comparator),
  `csqrt` (root with non-negative real part), `j0`, `j1`, `jn` (Bessel functions, by Bessel's integral), the FFTW inverse transform (the
  discrete transform of the Hermitian spectrum), `fread`/`fwrite` (whole items, bytes in order), `strtod`/`sscanf` (grammar of the C
  standard, correctly rounded), `omp for` (iterations handed out in any order to any thread, barrier at the end).

### Arithmetic

* `real_t` and `cplx_t` are double precision in the code. The model uses exact `ℝ` and `ℂ` (or any field, where a theorem needs no more).
  **Rounding, overflow and underflow are outside the model** except in `Verif/Files`, where option texts, directory names and header values
  are compared: there, numbers are rounded to 53 or 24 bits (`Verif/Num/Round.lean`: nearest, ties to even, no limits on the exponent).
* NaN and infinity are modelled where a property is about them: table lookup (`GRT.Search.FP`), option lists (`GRT.Files.Val`), travel times
  that cannot be computed.
* `size_t` is `ℕ`; where a subtraction may wrap around, the model has a separate outcome.
* Undefined behaviour (out-of-bounds access; division by zero where the code does not test for it and the result matters) is a distinct
  outcome: `Option.none`, `Out.undef` or `Res.undef`. It is never replaced by a default value. Theorems either prove that it does not occur
  or exhibit inputs for which it does.

### Concurrency

`StaticSyn/Parallel.lean` and `Freq/Loop.lean` are transition systems: any number of threads, any hand-out of iterations, reads and writes of
shared locations as separate steps. The theorems hold for all executions and include termination.

## 2. Conventions

* `Cnn_…` proves property `Cnn` of `properties.jsonl` or a part of it.
* `_partial`: a part of the property is missing; the comment says which.
* `Cnn_violated…`, `Cnn_…_violated`: the code does not have the property; the theorem proves the failure with concrete inputs (or for a
  whole class of inputs).
* Specifications are written without the helpers of the model, in a section of their own before the theorems.
* Beside each theorem an `example` gives a concrete case that meets its hypotheses.
* `MANIFEST.json` lists, per property, the status and the theorems. `proved`: the statement holds as given, for all inputs, under the
  assumptions of section 1. `partial`: it holds only under a restriction named there, or the code violates it.
* `seeded/LOG.jsonl`: one line per deliberate error put into the model: definition, edit, claim broken, theorems that failed to prove, and
  theorems tightened when the error went unnoticed at first.

## 3. What is modelled

Columns: C source; modelled part; Lean modules; what is left out.

| Source | Modelled | Lean | Left out |
|---|---|---|---|
| `common/search.c` | all functions | `Search` | – |
| `common/RT_matrix.c` | all functions | `RT` | – |
| `common/model.c` | reading of layers with insertion of source and receiver, medium at a depth, boundary settings, state at a frequency and wavenumber | `Model1D` | text scanning of the model file, printing, memory handling |
| `common/attenuation.c` | all | `Model1D/State` | – |
| `common/coord.c`, `common/radiation.c` | all | `Syn` | – |
| `common/finite_fault.c` | subfault geometry, discretisation, Coulomb lines | `StaticSyn/Fault`, `Moment` | text scanning of the fault file |
| `common/travt.c` | direct and head waves, both bisection loops | `Travt` | – |
| `common/util.c` | splitting, list options, ranges, check of the output directory | `Files` | log messages, directory creation, argument of `-V` |
| `common/myfftw.c` | direct inverse transform; library transform by contract | `Freq/Fft` | plan creation |
| `common/bessel.c` | all, by contract | `Integ/Pk` | – |
| `dynamic/layer.c`, `dynamic/source.c`, `static/static_layer.c`, `static/static_source.c` | all functions | `Layer`, `Static` | – |
| `integral/kernel_template.c_`, `kernel.c` | both kernels, whole | `Kernel` | – |
| `integral/k_integ.c`, `dcm.c`, `dwm.c`, `fim.c`, `safim.c`, `ptam.c`, `kmax.c`, `quadratic.c`, `integ_process.c` | all functions | `Integ`, `Freq/Loop` | progress messages |
| `integral/iostats.c`, `tools/grt_ker2asc.c` | byte layout, extraction | `Integ/Log` | digits printed, column padding |
| `dynamic/grn.c`, `dynamic/grnspec.c` | frequency loop, traces, choice of files | `Freq` | progress bar, memory handling |
| `dynamic/grt_greenfn.c` | `prepare_grn_spec` (grid, band, transform settings), directory handling | `Freq`, `Files` | option letters other than lists, automatic `Length` |
| `dynamic/grt_syn.c` | choice of directory, synthesis per sample, time functions | `Files/Select`, `Syn`, `Signals` | option letters, SAC headers other than depths and distance |
| `dynamic/signals.c` | all functions | `Signals` | – |
| `dynamic/grt_strain.c`, `grt_stress.c`, `grt_rotation.c` and the static ones | per receiver and sample | `Syn`, `StaticSyn/Frame` | file handling |
| `static/grt_static_greenfn.c` | defaults of the integration settings, loops over source and receiver depths, grid distances | `StaticGrn/Model`; proofs in `StaticGrn/Prop`, `StaticGrn/Ends` | reading options, rounding of the axes, NetCDF; the comparison with the NaN reference wavenumber (omega = 1, vmin = 0) is modelled as never true |
| `static/static_grn.c` | duplicate distances; the integration for one pair of depths, signs, stored values | `StaticSyn/Dedupe`, `StaticGrn/Model`; proofs in `StaticGrn/Prop`, `Integ/Local` | statistics files |
| `static/stgrnlib.c` | distance table; indices of the table of Green's functions and media | `StaticSyn/Pick`, `StaticGrn/Model` | NetCDF, default subfault size |
| `static/grt_static_syn.c` | lookup, sums over corners, parallel region, derived fields | `StaticSyn` | NetCDF, `static_syn_from_gf_FF` beyond the parallel region |
| `static/recv_points.c` | grids, files of receivers | `StaticSyn/Points`, `StaticSyn/PointFile` | opening files, hexadecimal numbers, `grt_recv_nc_is_points` |
| `common/sacio.c_`, `sacio.c` | `write_sac`, `read_sac`, header reading, byte order | `Trace/File` | partial reads and XY data (unused), system failures |
| `modal/root.c` | golden section, root lists, both searches, Simpson test, starting velocities, choice of layers | `Modal/Golden`, `Roots`, `Search`, `Simpson`, `Drive` | velocities of half-spaces (Rayleigh, Scholte: any values), parallel loop over frequencies, secular functions (any functions) |
| `modal/secular.c`, `modal/eigenfn.c` | Love and Rayleigh: recursions, secular function, amplitudes of all layers, eigenfunction | `Modal/Love`, `LoveMode`, `Rayl`, `RaylSec`, `RaylMode`, `RaylEx` | comparisons of real numbers that choose a branch of the Rayleigh function (both branches are covered) |
| `modal/energy.c`, `modal/grt_eigenfn.c` | Love and Rayleigh: energy integrals, thin layers, group velocity, phase sensitivities | `Modal/Energy`, `Branch`, `Variation`, `RaylEnergy`, `RaylVar`, `RaylVarEx` | division by λ = 0 |
| `modal/modgrn.c`, `dynamic/source.c` | Love and Rayleigh: what a mode adds to the spectra, blanking of the DS row | `Modal/Residue`, `ModGrn`, `RaylRes`, `RaylGrn`, `RaylGrnEx` | the loop over frequencies and modes that adds up the terms (`grt_modsum_grn_spec`) |
| `modal/grt_modsum.c` | layers of source and receiver, begin time, arrival marks | `Modal/ModSum` | other options, file names |
| `modal/modal_def.c` | `grt_filter_eigenfn_info` | `Modal/Filter` | freeing memory |
| `modal/modal_util.c` | `grt_group_sensitivity` | `Modal/Group` | NetCDF |
| `tools/grt_disp2asc.c`, `modal/grt_eigenfn.c` | option `-F`, lines printed | `Modal/Filter` | other options, digits printed |
| `okada/okada.c` | `grt_okada_dc3d0`, `grt_okada_dc3d` and all they call | `Okada/Point`, `PointD`, `PointF`, `PointNav1`-`4`, `PointTr`, `PointKel`, `PointDec`, `PointFld`, `PointSol`, `PointProp`; `Finite` and `Finite*` for the rectangular fault; specification in `Okada/Spec` | — |
| `okada/grt_okada.c` | medium, potencies, change of axes, `add_point_source`, `add_finite_faults`, `okada_main` per receiver | `Okada/Main`; specification and proofs in `Okada/World`, `MainProp` | parsing of options, output file, loop over receivers |
| `lamb/lamb_util.c`, `lamb/lamb1.c` | all of it but the printing; the complete elliptic integrals of `lamb/elliptic.c` are parameters, taken to be exact (`Ell.Exact`) in C106 and C107 | `Lamb/Util`, `Lamb/Lamb1`; specification in `Lamb/Spec` (plane waves, traction, compliance, contour, the way around the pole); proofs in `Lamb/Roots`, `RootsProp`, `Tables`, `Groups`, `Int*`, `Facts`, `Dead`, `Classes`, `PhaseP*`, `PhaseS*`, `After*` (after the Rayleigh arrival), `Assemble`, `LambProp` | printing; that the contour integral is the displacement in time |
| `lamb/elliptic.c` | all of it but the error messages | `Lamb/Ellip`; specification in `Lamb/EllLink`; proofs in `Lamb/EllT`, `EllRF`, `EllDup`, `EllG`, `EllTail`, `EllEnd`, `EllLoop`, `EllProp` | the error of the polynomial approximations of the first and second integral |
| `lamb/grt_lamb1.c` | the checks of `-P`, `-T`, `-A`, the list of times | `Lamb/Cli`; proofs in `Lamb/CliProp` | reading the numbers, missing options |
| `dynamic/grt_kernel.c` | the options `-F`, `-C`, `-D`, the lists, the records of every file | `KernelProg/Model`; proofs in `KernelProg/Props`, `Band`, `Lists` | text of the options, directories, the binary form of a record (C42); a kernel that divides by zero untested ends the modelled run |
| `tools/grt_travt.c` | the text after `-R` in double precision, the rows of the table | `Travt/Table`; proofs in `Travt/TableProp`, `TableRows` | parsing of `-D`, padding, rounding of times to three decimals |
| `tools/grt_sac2asc.c` | all | `Trace/Ascii` | numbers that are not finite |
| `grt.c` | choice of the module and its arguments, options `-v`, `-h` | `Files/Dispatch` | help text, exit status |
| `modal/root.c` 556-650 | estimates of the velocities of Rayleigh and Scholte waves | `Modal/HalfSpace`, `Modal/Scholte`; proofs in `Modal/HalfSpaceProp` | rounding |
| `modal/grt_eigenv.c` | range of velocities searched without `-X` (lines 503-529) | `Modal/Range`; proofs in `Modal/RangeProp` | remaining options, output file |
| `pygrt/cli.py` 64-72 | `format_float` | `Python/Format`; proofs in `Python/FormatProp`, `Python/Numbers` | numbers that are not finite |
| `pygrt/pymod.py` 33-59, 558-722 | lists of numbers, `compute_syn` with `_source_options` | `Python/Numbers`, `Python/Syn`; proofs in `Python/SynProp` | the run of the process, its messages |
| `dynamic/grt_syn.c` 279-489 | options of `grt syn` | `Python/Getopt`, `Python/Syn` | checks of files and of the time function are parameters |
| `pygrt/pymod.py` 202-391 and `dynamic/grt_greenfn.c` 408-803 | `compute_grn` and the options of `grt greenfn` | `Python/Grn`; proofs in `Python/GrnProp` | files and directories; checks after the options are read |
| `pygrt/pymod.py` 393-556 and `static/grt_static_greenfn.c` 279-548 | `compute_static_grn` and the options of `grt static_greenfn` | `Python/StaticGrn`; proofs in `Python/StaticGrnProp` | files; checks after the options are read |
| `pygrt/pymod.py` 724-935 and `static/grt_static_syn.c` 311-589 | `compute_static_syn` and the options of `grt static_syn` | `Python/StaticSyn`; proofs in `Python/StaticSynProp` | files; checks after the options are read |
| `pygrt/utils.py` 129-285 and `okada/grt_okada.c` 207-346 | `compute_okada` and the options of `grt okada` | `Python/Okada`; proofs in `Python/OkadaProp` | files; checks of the medium |
| `pygrt/utils.py` 54-63, 475-505, 635-648, 654-707 | `read_statsfile`, extrema of `read_statsfile_ptam`, curves of `plot_statsdata` | `Python/Stats` (proofs beside) | choice of the file by pattern; drawing |
| `pygrt/utils.py` 388-452 | `stream_convolve`, `stream_integral`, `stream_diff` | `Python/Stream` (proofs beside) | exact numbers; `np.pad`, `oaconvolve`, `np.gradient` by their documented values |
| `modal/grt_eigenv.c` 244-304 | frequencies of `-F` | `Modal/Options` (proofs beside) | infinite numbers and those that are none |
| `static/stgrnlib.c` 209-240 | `grt_stgrnlib_default_subfault_size` | `StaticSyn/SubSize` (proofs beside) | exact numbers |
| `pygrt/utils.py` 508-596 | `read_kernels_freqs` | `Python/Kernels` (proofs beside) | one kernel function; `np.argsort` and `interpn` by their documented values; exact velocities; reading of the records is C127 |
| `modal/root.c` 247-524 | the two searches with `print_sec` (`grt eigenv -X`) | `Modal/Table` (proofs beside) | real velocities; arbitrary secular functions; comment line and `%.16e` left out |
| `pygrt/signals.py` 25-35, 59-81 | `gen_triangle_wave`, `gen_trap_wave` | `Python/Triangle` (proofs beside) | rounding of the times to `float` |
| `dynamic/grt_syn.c` 1087-1106, `grt_strain.c` 106-137, `grt_rotation.c` 103-135, `grt_stress.c` 164-205, `pygrt/pymod.py` 719-721 | names of the files written and read in a directory used more than once | `Files/SynDir` (proofs beside) | content of the traces, number of samples, other files |
| `dynamic/grnspec.c` 102-153, `dynamic/grt_syn.c` 748-784, 905-921, 975-1034 | which files of a directory used more than once are added up, number of samples | `Files/GrnDir` (proofs beside) | content of the traces, coefficients (only whether zero) |
| `pygrt/utils.py` 288-298, `dynamic/grt_strain.c` 141-151, `grt_rotation.c` 138-148, `grt_stress.c` 209-219 | names of the derived traces written and returned | `Files/PostDir` (proofs beside) | what is computed (left open), directories given as static files |

Not modelled at all:
`modal/grt_eigenv.c` apart from the range of velocities, the frequencies of `-F` and the table of `-X`.

Of the Python side (`/repo/pygrt/*.py`) only the parts listed above are modelled; drawing, reading of traces, the rest of `utils.py` and of `signals.py` are not.

## 4. Simplifications worth knowing

* **Kernel failures.** The model of the kernel returns a failure when a determinant vanishes. The integrators of the code look at
  `mstat->stats`, which no code assigns; C19 states this, and `Freq/Loop` accordingly uses kernels without a reported failure.
* **Static finite-fault sums** (C28) are over the reals. In floating point the result depends on the order of the additions in the last
  digits; this is not modelled. Receivers that the code skips are part of the statement.
* **Travel times** (C30, C31, C62): exact arithmetic; the tolerance of the shooting loop is in the statements.
* **Time functions and convolution**: exact reals; array bounds are checked by the model.
* **Log files** are lists of bytes; a printed number stands for its bytes.
* **Dynamic kernel** (C57): existence of the physical field is proved; uniqueness only for the static kernel.
* **Blanking** (C58): the dynamic kernel; the last step, that a constant kernel has no effect away from the epicentre, is a statement about
  distributions and not proved.

## 5. Where the code departs from the property

Each item is a theorem about the model with concrete inputs.

| Property | Departure |
|---|---|
| C01 | a NaN query returns a bracket instead of being refused |
| C02 | capacity 0 reads out of bounds |
| C07 | equal source and receiver depths inside a liquid layer are rejected |
| C08 | lambda uses the attenuation of S only |
| C13 | the liquid-solid routine divides without the test its siblings have |
| C19 | `mstat->stats` is never assigned; a failing top boundary is masked by the SH call; a failing interface leaves a half-built table |
| C26 | a table taken for uniform may drift, and a wrong or absent entry is read |
| C32 | circular convolution reads before the array when the second sequence is longer than the first by two or more |
| C33 | damped convolution fails for time functions longer than the trace |
| C34 | the area divides by the sampling interval; differencing a single sample reads past the end |
| C35 | a trapezoid with a short fall ends at full height; a very short parabola is a single zero; an even parabola misses its maximum |
| C36 | a single `nan` from a file is accepted; `0/0.3/0.1` loses its end; `1-2` or `e` are read as numbers |
| C37 | the last wavenumber may exceed the limit by up to one step |
| C39 | a vertex out of range records the value of the parabola at wavenumber zero; for complex sums the vertex is not the extremum of the real part |
| C40 | the sine end terms of the fixed-step Filon rule have the wrong sign |
| C42 | a cut inside the first number of a record is not noticed; with derivatives the extremum file pairs wavenumbers and values of different quantities |
| C45 | with values within 1e-5 of each other the choice depends on the order of the directory listing; 300.3 km is not found by the same number |
| C46 | after a run with a distance text such as `1e`, the next run refuses the directory |
| C48 | serial build: a refined step stays in force for later frequencies; every build: the attenuation reference is the highest frequency of the band |
| C49 | the last valid bin is dropped; a single sample counts three times; no valid bin leaves the array |
| C58 | with a half-space top the row thrown away is not a constant |
| C60 | between tabulated distances the strain in the two frames differs |
| C62 | faster refractors behind a slow one are missed |
| C65 | a following Filon part skips the near-field entry and uses constants of another wavenumber |
| C66 | the fixed-step Filon part starts one of its own steps after the discrete part and overshoots the limit |
| C67 | the tolerance never takes effect in the fixed-step Filon part |
| C68 | a band between two grid frequencies computes the one above; a band above half the sampling rate computes the last |
| C69 | for even lengths, denser sampling counts the term at half the sampling rate twice |
| C43 | reading or writing a trace in the other byte order is undefined (an object passed as const is changed); a trace without samples is not readable |
| C71 | a number stuck to the one before it (`10-5`) is read as a column of its own |
| C51 | selecting from a group-velocity file made with a selection of orders drops entries (the order is compared with the number of entries) |
| C52 | group-velocity sensitivities read a mode that does not exist when the next frequency has fewer modes |
| C55 | Love waves in an all-liquid model are searched at a layer beyond the last; liquids over a solid half-space raise the error instead |
| C74 | a range of periods (`-F10/50+p`) is used as a range of frequencies; a start below the step (`-F0.05/1/0.1`) is moved to the step |
| C75 | at the last frequency the mixed derivative is taken as zero |
| C77 | the half-space as reference layer (`-X+i`) gives the function of the layer above it, and its eigenfunction divides by zero |
| C49 | with a first frequency other than zero bin zero is left out |
| C79 | a layer thinner than a hundred-thousandth of the step of `-K` is dropped from the energy integrals and has no sensitivities |
| C85 | with `-Ep` a mode-sum trace begins before -12345 s (an unset header field is read); its arrival marks are travel times between the tops of the layers of source and receiver, zero if these are the same |
| C86 | at the velocity of Rayleigh waves in a half-space of the top layer's material the surface reflection is refused, the matrices are left unfinished, and the secular function is zero at every frequency although no wave exists (`C86_violated_top`) |
| C87 | amplitudes are taken from the first row of the matrix alone; where that row is zero they are NaN although a wave exists (`C87_violated_row`) |
| C92 | depth derivatives of Rayleigh modes at receivers in a liquid are written as zero |
| C102 | cracks (`-M` with two angles) are computed with the moment times μ/λ (`C102_violated`), unlike the same source in the synthesis and unlike Kode 500 (`C102_violated_self`); for λ=0 the program divides by zero |
| C104 | a fault whose top is above the surface (negative depth) is accepted and gives results (`C104_violated`) |
| C107 | `grt lamb1` accepts a list with a single time (`-T1/1/0.1`) and the solver reads a second one past the end (`C107_violated_single`; so does the Python function); `-T0/0.3/0.1` gives three times (`C107_violated_rounding`) |
| C109 | `grt static greenfn -L-20` is accepted and the search for the largest wavenumber runs downwards without end (`C109_violated`) |
| C113 | `grt kernel -C3/4/0` and negative steps are accepted (undefined conversion or empty files), `-F0.5/3/1` starts at 1 Hz, `-C3/3.3/0.1` has three velocities |
| C114 | with attenuation the response at a frequency depends on the last frequency of the run, which is the reference of the attenuation law: `grt greenfn -H` is not a filter (`C114_violated_greenfn`), two runs of `grt kernel` with different `f2` differ (`C114_violated`) |
| C115 | `grt travt -R0/300/0.57` is undefined behaviour: `0.57*10` is not 5.7 in double precision, the loop that counts decimals runs on and converts `3e9` to `int`; `-R0/0.3/0.1` has three rows; `-Re,1-2` is accepted and shows texts that are no distances |
| C116 | with a begin time of 3000 s and 0.0001 s sampling `grt sac2asc` prints equal times for neighbouring samples, and different samples can be printed alike (eight digits for a `float`) |
| C118 | for Vp/Vs between 2.44 and sqrt(6) (Poisson's ratio just below 0.4) Newton's method in `grt_halfspace_Rayleigh_croot` runs to the mirror image of the root and the search for Rayleigh waves starts from a negative velocity; numerically the estimate is wrong from Vp/Vs = 2.26 on |
| C120 | for a plate on a liquid half-space (ice on deep water) the range searched ends at the velocity of sound of the liquid, while all Love waves of the plate are at least as fast as its shear waves: none is found |
| C121 | Python writes numbers with fifteen digits (`.15g`), so a double that needs more arrives changed (1/3), and two list elements that differ only beyond the fifteenth digit arrive equal and are refused |
| C122 | `time_function="0/my file.txt"`: the program reads the name with `%s` and looks for `my` |
| C123 | `upsampling_n=-1` is accepted by Python and by `%zu` and becomes 2^64 - 1; `ref_first_p=True` with the default `delayT0=0` is always refused (`-Ep` wants a negative time, which no documentation says); `Length=1e15` is refused because `-L1e+15` is split at the plus sign |
| C124 | `norths=(0,0.3,0.1)` gives three coordinates, the last 0.2: the number of steps is the floor of the quotient of two rounded numbers (2.999...) |
| C125 | a path of `finite_fault` with a plus sign is cut there: `M7+.inp` is refused, `slip+i2/1` makes the program read the file `slip` in parts of 2 by 1; `norths=(0,0.3,0.1)` gives three coordinates, the last 0.2 |
| C126 | a path of faults with a plus sign is refused; `norths=(0,0.3,0.1)` gives three coordinates, the last 0.2 |
| C127 | the curve of part 1 of a horizontal force at distance 0 is 0/0; the program integrates the limit -(q+v)k/2 |
| C129 | `-F1/10/2` searches 2, 4, 6, 8, 10 instead of 1, 3, 5, 7, 9 (the start is raised to the step, meant for a start of 0); `-F0/1/2` searches 2; `-F0.1/0.3/0.1` leaves out 0.3 |
| C131 | `read_kernels_freqs` computes velocities from the frequency in the name of the file (`%.5e`): at 1/3 Hz the largest velocity recorded is refused; frequencies that agree in six digits have no order |
| C132 | `grt eigenv -X` with a range of velocities shorter than the gap prints a row from an interval that was never set; with a fixed step longer than the range the second row lies above it |
| C133 | `gen_triangle_wave` for a length of an odd number of intervals rises one interval longer than it falls; for one interval the samples are 0, 1 |
| C134 | a directory of synthetics used twice: `grt strain`, `rotation`, `stress` take the frame ZNE whenever an old `nN.sac` is there and mix the files of both runs; derivatives of an earlier run are used with displacements of a later one; `compute_syn` returns old components |
| C135 | a directory of Green's functions written twice with different `-G`: moment tensors and tensile cracks mix the traces of both runs, and read outside the arrays if the later run has more samples |
| C136 | `compute_strain`, `compute_rotation`, `compute_stress` with a directory used in both frames also return the components of the other frame left by an earlier call |

## 6. Axioms theorem by theorem

Output of `#print axioms` for every theorem named in `MANIFEST.json`.

**`Classical.choice`, `Quot.sound`, `propext`** (490):
* `GRT.Ell`: `C111_pi`, `C111_cut`, `C111_one`
* `GRT.Files`: `C36_sound_partial`, `C36_accepts`, `C36_range_integers`, `C36_count_partial`, `C36_value_partial`, `C36_violated`,
  `C36_range_violated`, `C36_lenient_violated`, `C45_found`, `C45_finds`, `C45_order_given`, `C45_order_partial`, `C45_order_violated`,
  `C45_lookup_partial`, `C45_lookup_violated`, `C46_sound`, `C46_one_model`, `C46_not_mixed`, `C46_complete`, `C46_rerun_violated`
* `GRT.Files.Dispatch`: `C117_run`, `C117_static`, `C117_manual`
* `GRT.Freq`: `C47_prefix`, `C47_rising`, `C48_parallel_partial`, `C48_terminates`, `C48_serial_partial`, `C48_serial_violated`,
  `C48_reference_violated`, `C49_full_partial`, `C49_constant_partial`, `C49_last_bin_violated`, `C49_single_violated`,
  `C49_empty_violated`, `C49_offset_violated`, `C56_series`, `C56_inverse`, `C56_skip`, `C68_defined`, `C68_band_partial`,
  `C68_between_violated`, `C68_above_violated`, `C69_partial`, `C69_difference`, `C69_even_violated`, `C70_files`, `C70_names`,
  `C70_traces`, `C110_parallel`, `C110_serial`
* `GRT.GrnDir`: `C135_partial`, `C135_single`, `C135_kept`, `C135_violated`, `C135_violated_mixed`
* `GRT.Integ`: `C37_grid_partial`, `C37_zero`, `C37_overshoot_violated`, `C39_average`, `C39_geometric`, `C39_alternating`,
  `C39_method_partial`, `C39_method_real`, `C39_defined`, `C39_outside_violated`, `C39_vertex_violated`, `C40_quad_interpolates`,
  `C40_quad_unique`, `C40_quad_integral`, `C40_quad_cos`, `C40_three_point`, `C40_adaptive`, `C40_linear_partial`, `C40_linear_violated`,
  `C41_terminates`, `C41_partition`, `C41_failure`, `C41_simpson`, `C41_fit`, `C42_kernel_file`, `C42_point_file`, `C42_points_partial`,
  `C42_points_violated`, `C42_cut_violated`, `C64_harmonic`, `C64_derivative`, `C64_axis`, `C65_restored_partial`, `C65_axis`,
  `C65_no_derivatives`, `C65_filon_near_violated`, `C65_filon_force_violated`, `C65_axis_terms`, `C66_fixed_step_gap_violated`,
  `C66_fixed_step_overshoot_violated`, `C67_fixed_step_violated`
* `GRT.Integ.Kmax`: `C38_terminates`, `C38_bounds`, `C38_first_settled`
* `GRT.Kernel`: `C19_partial`, `C19_violated_top`, `C19_violated_rayleigh`, `C19_violated_scholte`, `C57_kernel`, `C57_dynamic_field`,
  `C57_static_field`, `C58_free_partial`, `C58_violated_halfspace`
* `GRT.KernelProg`: `C112_records`, `C113_partial`, `C113_violated_start`, `C113_violated_step`, `C113_violated_empty`,
  `C113_violated_round`, `C114_partial`, `C114_violated`, `C114_violated_greenfn`
* `GRT.Lamb`: `C105_roots`, `C105_rayleigh`, `C106_lamb`, `C107_program_partial`, `C107_violated_single`, `C107_violated_rounding`
* `GRT.Layer`: `C13_ss_PSV`, `C13_ss_PSV_unique`, `C13_ll_PSV`, `C13_ll_PSV_unique`, `C13_ls_contact`, `C13_interface_PSV`,
  `C13_interface_PSV_unique`, `C13_interface_SH`, `C13_ss_SH_unique`, `C13_layer_matrix`, `C13_layer_inverse`, `C13_SH_defined`,
  `C13_violated_ls_undef`, `C14_free_top`, `C14_free_bottom`, `C14_free_unique`, `C14_rigid_top`, `C14_rigid_bottom`, `C14_SH`,
  `C14_free_failure_iff`, `C14_free_bottom_delayed`, `C15_same_solid`, `C15_same_liquid`, `C15_split_stack`, `C15_split_response`,
  `C15_split_success`, `C15_delayGRT`, `C15_split_SH`, `C15_delayGRT_SH`, `C15_delay_contact`, `C16_factor_le_one`, `C16_factor_lt_one`,
  `C16_factor_mul`, `C16_delay_bounded`, `C17_jump_PSV`, `C17_jump_SH`, `C17_jump_liquid`, `C18_field_motion`, `C18_deriv_PSV`,
  `C18_kernel_PSV`, `C18_kernel_SH`, `C18_field_motion_SH`
* `GRT.Modal`: `C50_roots`, `C51_partial`, `C51_safe`, `C52_violated`, `C53_simpson`, `C53_accepted`, `C53_fit`, `C54_bracket`,
  `C54_converges`, `C55_partial`, `C55_violated`, `C55_error_violated`, `C72_adaptive`, `C72_fixed`, `C72_frequency`, `C73_sampling`,
  `C73_estimates`, `C74_partial`, `C74_period_violated`, `C74_start_violated`, `C75_formula`, `C75_partial`, `C75_last_violated`,
  `C76_secular_iff`, `C76_mode`, `C76_converse`, `C77_layer_partial`, `C77_division_violated`, `C78_love`, `C79_thin_partial`,
  `C79_thin_violated`, `C80_group`, `C81_sens`, `C82_pole`, `residue_SH`, `love_unique`, `C83_depth`, `C83_range`, `C84_surface`,
  `C85_begin_partial`, `C85_begin_violated`, `C85_mark_violated`, `C85_depth_violated`, `C86_secular_iff_partial`, `C86_converse_partial`,
  `C86_violated_top`, `C87_mode_partial`, `C87_violated_row`, `C88_rayl`, `C89_group`, `C90_sens`, `C91_pole`, `C92_depth_partial`,
  `C92_range`, `C93_surface`, `C120_love`, `C120_refused`, `C120_violated`, `C132_adaptive`, `C132_fixed`, `C132_violated`,
  `C132_violated_step`
* `GRT.Modal.HalfSpace`: `C118_partial`, `C118_violated`, `C118_violated_far`, `C119_scholte`
* `GRT.Modal.Oc`: `C92_liquid_violated`
* `GRT.Modal.Options`: `C129_order`, `C129_partial`, `C129_near`, `C129_violated_start`, `C129_violated_end`, `C129_violated_rounding`
* `GRT.Model1D`: `C05_wellformed`, `C05_loads`, `C06_lookup`, `C06_refines`, `C06_medium`, `C06_source_receiver`, `C07_partial`,
  `C07_violated`, `C08_violated_iff`, `C08_violated`, `C57_from_file`
* `GRT.Okada`: `C94_derivatives`, `C95_equilibrium`, `C96_source`, `C97_codes`, `C98_derivatives`, `C99_integral`, `C100_equilibrium`,
  `C101_codes`, `C102_source_partial`, `C102_violated`, `C102_violated_self`, `C103_rectangles`, `C103_points`, `C103_sum`,
  `C104_outcome_partial`, `C104_violated`
* `GRT.Points`: `C44_points`, `C44_cells`, `C44_written`, `C44_reread`, `C71_line`, `C71_line_only_partial`, `C71_accepts`, `C71_safe`,
  `C71_glued_violated`
* `GRT.PostDir`: `C136_call`, `C136_partial`, `C136_violated`
* `GRT.Python`: `C121_error`, `C121_number`, `C121_list_partial`, `C121_violated`, `C121_violated_list`
* `GRT.Python.Grn`: `C123_source`, `C123_partial`, `C123_violated_upsampling`, `C123_violated_first`, `C123_violated_large`
* `GRT.Python.Kernels`: `C131_rows`, `C131_direct`, `C131_value`, `C131_range`, `C131_near`, `C131_violated`, `C131_violated_order`
* `GRT.Python.Okada`: `C126_source`, `C126_partial`, `C126_near`, `C126_violated_path`, `C126_violated_grid`
* `GRT.Python.StaticGrn`: `C124_source`, `C124_partial`, `C124_near`, `C124_violated_grid`
* `GRT.Python.StaticSyn`: `C125_source`, `C125_partial`, `C125_near`, `C125_violated_refused`, `C125_violated_file`, `C125_violated_grid`
* `GRT.Python.Stats`: `C127_read`, `C127_extrema`, `C127_plot`, `C127_exception`, `C127_violated_epicentre`
* `GRT.Python.Stream`: `C128_convolve`, `C128_long`, `C128_integral`, `C128_diff`
* `GRT.Python.Syn`: `C122_source`, `C122_partial`, `C122_violated`
* `GRT.Python.Triangle`: `C133_even`, `C133_partial`, `C133_violated`
* `GRT.RT`: `C09_assoc_PSV`, `C09_outer_success_PSV`, `C09_bracketing_PSV`, `C09_assoc_SH`, `C10_neutral_PSV`, `C10_neutral_SH`,
  `C11_single_PSV`, `C11_inplace_PSV`, `C11_frame_PSV`, `C11_alias_second_unsafe`, `C12_combine_PSV`, `C12_unique_PSV`,
  `C12_success_iff_PSV`, `C12_combine_SH`, `C12_stack_PSV`
* `GRT.Search`: `C01_locate_correct`, `C01_locate_complete`, `C01_violated_nan`, `C02_insert_history`, `C02_insert_return`,
  `C02_topK_unique`, `C03_argsort_stable`, `C03_argsort_exists`, `C04_findElement`, `C04_findMin`, `C04_findMax`,
  `C04_findLessEqualClosest`, `C04_findClosest`
* `GRT.Signals`: `C32_linear`, `C32_circular_partial`, `C32_comm`, `C32_linearity`, `C32_violated`, `C33_restored`,
  `C33_convolution_partial`, `C33_no_wrap`, `C33_violated`, `C33_violated_formula`, `C34_integral`, `C34_integral_linear`,
  `C34_integral_add`, `C34_differential`, `C34_differential_exact`, `C34_undo`, `C34_area_partial`, `C34_violated`, `C34_violated_always`,
  `C35_trapezoid`, `C35_trapezoid_peak`, `C35_trapezoid_start`, `C35_trapezoid_end_partial`, `C35_violated`, `C35_parabola`,
  `C35_parabola_shape`, `C35_parabola_violated`, `C35_parabola_peak_violated`, `C35_ricker`, `C35_ricker_shape`
* `GRT.Static`: `C13_static_contact`, `C13_static_unique`, `C13_static_SH`, `C13_static_field`, `C13_static_defined`, `C14_static_top`,
  `C14_static_bottom`, `C15_static_split`, `C15_static_response`, `C16_static_factor`, `C17_static_jump`, `C17_static_jump_SH`,
  `C18_static_deriv`, `C18_static_motion`, `C18_static_kernel`, `C18_static_kernel_SH`
* `GRT.StaticGrn`: `C108_entry`, `C108_media`, `C109_ends_partial`, `C109_violated`
* `GRT.StaticSyn`: `C25_restore`, `C25_reduced`, `C25_transparent`, `C26_partial`, `C26_uniform_partial`, `C26_table`, `C26_violated`,
  `C26_violated_bracket`, `C26_violated_profile`, `C27_interpolation`, `C27_bilinear`, `C28_sum`, `C28_progress`, `C28_terminates`,
  `C28_fault`, `C29_tiling`, `C29_normal`, `C60_partial`, `C60_violated`, `C61_superposition`, `C61_slip_vector`, `C63_moment`,
  `C63_inr_only_100`
* `GRT.StaticSyn.SubSize`: `C130_finest`, `C130_error`, `C130_library`, `C130_grid`
* `GRT.Syn`: `C20_derivative`, `C20_overwrites`, `C21_tensor`, `C21_force`, `C21_equivalent`, `C21_double_couple`, `C22_linear_moment`,
  `C22_linear_source`, `C22_rotation`, `C22_rotated_strike`, `C23_vec`, `C23_vec_roundtrip`, `C23_sym`, `C23_sym_roundtrip`, `C23_upar_vec`,
  `C23_upar_roundtrip`, `C24_strain`, `C24_stress`, `C24_rotation`, `C24_hooke`, `C24_hooke_dyn`, `C24_stress_dyn`, `C59_zrt`,
  `C59_gradient`, `C59_axis`
* `GRT.SynDir`: `C134_derived_partial`, `C134_stream`, `C134_violated_old`, `C134_violated_stream`
* `GRT.Trace`: `C43_roundtrip_partial`, `C43_cut`, `C43_order_violated`
* `GRT.Trace.Ascii`: `C116_partial`, `C116_violated_time`, `C116_violated_amplitude`
* `GRT.Travt`: `C30_reciprocity`, `C30_exchange`, `C31_direct`, `C31_attained`, `C31_marker`, `C31_marker_file`, `C31_reader`,
  `C62_violated`, `C62_down_partial`, `C62_up_partial`, `C115_rows`, `C115_swap`, `C115_integers`, `C115_decimals_partial`,
  `C115_violated_count`, `C115_violated_undef`, `C115_violated_small`, `C115_violated_text`, `C115_empty`

**`Quot.sound`, `propext`** (16):
* `GRT.GrnDir`: `C135_last`
* `GRT.Kernel`: `C19_build_zero`, `C19_violated_stats`, `C58_only_DS`
* `GRT.Modal`: `C51_violated`, `C52_partial`, `C77_halfspace_violated`
* `GRT.Model1D`: `C08_partial`
* `GRT.RT`: `C11_single_SH`, `C12_failure_SH`
* `GRT.Search`: `C01_violated_nan_single`, `C03_argsort_unique`
* `GRT.Signals`: `C34_differential_short`
* `GRT.SynDir`: `C134_violated`, `C134_violated_mixed`
* `GRT.Trace`: `C43_refuses`

**`propext`** (3):
* `GRT.Search`: `C02_capacity_zero_undefined`, `C04_findMin_empty_undefined`
* `GRT.Trace`: `C43_empty_violated`

## 7. Properties and modules

| Property | Status | Modules | Note |
|---|---|---|---|
| C01 Interpolation bracketing is correct | proved | `Search/PropsLocate` | All array lengths over any ordered field. NaN queries are a separate outcome: the code returns a bracket for them (negation proved). |
| C02 Bounded ordered insertion keeps exactly the best values | proved | `Search/PropsInsert` | Every insertion history, any capacity >= 1; capacity 0 reads out of bounds. |
| C03 Index sort is a stable sorting permutation | proved | `Search/PropsInsert` | qsort itself is library code: every permutation sorted by the comparator is covered. |
| C04 Array searches return the right index | proved | `Search/PropsFind` | All lengths. |
| C05 Source and receiver insertion yields a well-formed layered model | proved | `Model1D/Props` | Model file array to layered model, for every layer stack and every pair of non-negative depths. |
| C06 Inserting source and receiver does not change the medium | proved | `Model1D/Props` | The inserted model is a refinement of the file. |
| C07 Liquid-interface rejection is exact | partial | `Model1D/Props` | Exact characterisation of the rejected inputs; the property as stated is violated (equal depths inside a liquid layer are rejected), witness in C07_violated. |
| C08 Anelastic moduli are consistent with the attenuated velocities | partial | `Model1D/State` | Shear modulus correct; lambda uses the S attenuation factor, so the property holds exactly when the two squared factors agree; witness Qp=600, Qs=300. |
| C09 Layer composition is associative | proved | `RT/Props` | Any field, stacks of any length. |
| C10 A freshly reset response is the neutral element | proved | `RT/Props` |  |
| C11 Single-coefficient combination agrees with the full combination, in place too | proved | `RT/Props` | Aliasing modelled through a store. Overwriting the second argument is proved unsafe (no caller does it). |
| C12 Combination solves the two-stack wave system | proved | `RT/Props` | Any field, in-place output allowed, stacks of any length. |
| C13 Interface coefficients satisfy continuity | proved | `Layer/PropsIface`, `Layer/Depth`, `Static/Props` | All interface kinds; the unchecked divisions of the liquid-solid routine are exhibited by C13_violated_ls_undef. |
| C14 Boundary reflections satisfy the boundary condition | proved | `Layer/PropsBound`, `Layer/Split`, `Static/Props` | Dynamic and static problems. |
| C15 Splitting a homogeneous layer changes nothing | proved | `Layer/Split`, `Static/Props` | Dynamic and static problems, stacks of any length. |
| C16 Propagation through a layer never amplifies | proved | `Layer/Depth`, `Static/Props` | csqrt by its C99 contract; exact arithmetic. |
| C17 Source terms produce the prescribed jumps | proved | `Layer/Source`, `Static/Props` | Dynamic and static problems. |
| C18 Vertical-derivative output is the derivative of the displacement output | proved | `Layer/Depth`, `Static/Props` | Dynamic and static problems. |
| C19 A singular system is reported, not silently used | partial | `Kernel/Fail` | Violated by the code: mstat->stats is never assigned, a failing top boundary is masked by the SH call, a failing interface yields a table from half-built accumulators. Witnesses at the Rayleigh and Scholte poles. What holds is C19_partial. |
| C20 Reported azimuthal-derivative factors are the azimuthal derivatives | proved | `Syn/RadProps` | all source types, all azimuths; over the reals |
| C21 Equivalent source descriptions give equal synthetics | proved | `Syn/RadProps` | angles or tensor give the same factors |
| C22 Radiation is linear and rotation invariant | proved | `Syn/RadProps` | linearity in moment and mechanism, rotation covariance |
| C23 Horizontal rotations are faithful | proved | `Syn/CoordProps` | rotations are orthogonal conjugations; round trips at every distance |
| C24 Strain, rotation and stress do not depend on the output frame | proved | `Syn/CoordProps` | per receiver, static and dynamic; the Fourier multiplication of the dynamic stress is a linear map of traces |
| C25 Removing duplicate distances does not change results | proved | `StaticSyn/Dedupe` | Arithmetic over an ordered field; comparison tolerance as in the code. |
| C26 Distance interpolation in static synthesis stays inside the table | partial | `StaticSyn/Pick` | The fast path for tables taken for uniform is violated: a table may pass the uniformity test although its spacing drifts, and then entries outside the table are read or the wrong bracket is used (witness: a profile 5 km north, 0/50/100 m east). Proved for the general path and for exactly uniform tables. |
| C27 Depth interpolation is exact for bilinear data | proved | `StaticSyn/Grid` | Corners with factor below 1e-15 are left out by the code; the theorem states the result with them subtracted. |
| C28 Finite-fault summation is schedule independent | proved | `StaticSyn/Parallel` | Transition system with private buffers, barrier and critical section; sums over the reals (floating-point rounding depends on the order and is not modelled); iterations that exit with an error are excluded by hypothesis. |
| C29 Subfaults tile the fault and conserve potency | proved | `StaticSyn/Fault` | Real arithmetic. |
| C30 Travel times are reciprocal | proved | `Travt/File`, `Travt/Props` | From the model file on, for P and S; arbitrary arrays need equal velocities below adjacent interfaces, which the reader guarantees. |
| C31 Reported travel time never exceeds the direct wave | proved | `Travt/Props`, `Travt/File` | Over the real numbers; the tolerance of the shooting loop is part of the statement. |
| C32 Convolution is convolution, and stays in bounds | partial | `Signals/Conv` | Linear convolution proved for all lengths. Circular convolution proved for a second sequence at most one sample longer than the first; for longer ones C32_violated shows a read before the array (reachable with a custom time function longer than the trace). |
| C33 Damped convolution equals undamped convolution up to attenuated wrap-around | partial | `Signals/Conv` | Proved for time functions not longer than the trace; C33_violated shows the failure one sample beyond. |
| C34 Integration and differentiation of traces are the trapezoid rule and its companions | partial | `Signals/Ops` | Integral and differences proved. The area function divides by the sampling interval instead of multiplying (C34_violated); a single sample cannot be differenced without reading past the end. |
| C35 Source time functions have the documented shape | partial | `Signals/Wave` | Samples lie on the shapes for all accepted parameters. Violations: a trapezoid with a fall shorter than one interval may end at full height; a parabola shorter than the tolerance is a single zero; with an even number of samples the parabola does not reach one. |
| C36 List options are strictly ascending and non-negative | partial | `Files/Options`, `Files/Range` | Character-level model with double rounding. Violated as stated: a single nan from a file is accepted, 0/0.3/0.1 loses its end point, text such as 1-2 or e is read as a number. Ranges of integers are exact; other ranges are right up to one value and 13 digits. |
| C37 Wavenumber grid covers the interval exactly | partial | `Integ/Dwm` | Grid, stopping rule and returned wavenumber proved in exact arithmetic; the last wavenumber may exceed kmax by up to one step, shown as a violation. |
| C38 The predicted integration limit is within bounds and found in finite time | proved | `Integ/Kmax` | Exact arithmetic; the initial value is positive, as all callers pass the wavenumber step. |
| C39 Peak-trough averaging returns values consistent with the samples | partial | `Integ/Ptam` | The reduction is the binomial average, exact on alternating tails. The whole loop: every result is the binomial average of points recorded at separate windows of three successive integrals, at least one (all 36) of them for fine enough steps. For real kernels each point is an extremum of the parabola inside the samples. Violated for complex sums: when the fitted vertex is out of range the value recorded is the parabola's at wavenumber zero, and inside the range the vertex is not the extremum of the real part. |
| C40 Filon quadrature is exact for piecewise-linear and quadratic data | partial | `Integ/Quad`, `Integ/Safim`, `Integ/Fim` | Quadratic rule and the whole adaptive integral proved exact. The fixed-step rule has a sign error in its sine end terms; the result with the error is proved, and shown not to be the integral. |
| C41 Adaptive integration partitions the interval | proved | `Integ/Safim` | Exact arithmetic. |
| C42 Integration log files read back what was written | partial | `Integ/Log` | Kernel and extremum files, whole or cut at any byte, print as the complete records with the values written under the right names and then a strict beginning of the next. Violated: a cut inside the first number of a record is not noticed; with derivatives the extremum file pairs wavenumbers of the displacement with values of the vertical derivative. |
| C43 Trace files round-trip, on either byte order | partial | `Trace/File` | Reading what was written gives the header and the samples back, cut files and other header versions are refused.  Not for files of the other byte order (a const parameter is changed while writing or reading, undefined) and not for a trace without samples. |
| C44 Grid receivers are laid out consistently | proved | `StaticSyn/Points` | Points, file axes, field layout, and the points made again by strain, rotation and stress.  NetCDF by contract. |
| C45 Green's-function directory selection is unambiguous | partial | `Files/Select` | Uniqueness proved. Order independence proved with all options given or with values equal or clearly apart; violated for values within 1e-5 of each other. The float header makes the lookup of the same number fail at e.g. 300.3 km; proved to succeed below 250 km. |
| C46 Output-directory safety check | proved | `Files/OutDir` | Names and kinds of entries, not the contents of subdirectories. Completeness for decimal numbers in the range of double; a distance text that is no number (accepted by the lenient option parser) makes the next run refuse the directory. |
| C47 Skipping of very low frequencies removes only a prefix | proved | `Freq/Band` | The frequencies left out at the low end form a prefix of the band; among the rest the modulus of the complex frequency rises. |
| C48 Frequencies are computed independently of each other | partial | `Freq/Loop` | Proved for the parallel build over all schedules, and for the serial build with a common reference wavenumber limit. Violated in the serial build, where a refined step stays in force for later frequencies, and in every build through the attenuation reference frequency, which is the highest of the band. |
| C49 The partial inverse transform equals the zero-padded inverse transform | partial | `Freq/Fft` | The direct sum is right when all bins or only bin zero are valid. Otherwise the last valid bin is dropped; a single sample is counted three times; with no valid bin the array is left.; bin zero is left out for a first frequency other than zero |
| C50 Root lists of surface-wave modes are well formed | proved | `Modal/Roots` | For every order of candidates: strictly increasing, separated by more than the gap, at most nmode, each with its layer; the list is a greedy selection of the candidates. |
| C51 Mode selection keeps the right modes | partial | `Modal/Filter` | Exact for tables whose columns are the orders 0,1,... (all phase-velocity files); never out of bounds. Violated for group-velocity files made with a selection of orders: the order is compared with the number of entries. |
| C52 Group-velocity sensitivity only reads existing modes | partial | `Modal/Group` | Safe when the number of modes does not fall with frequency; violated wherever the next frequency has fewer modes (proved in general). |
| C53 Simpson variants integrate quadratics exactly | proved | `Modal/Simpson` | The five rules of root.c; those of safim.c are under C41. |
| C54 Golden-section refinement stays in its bracket and stops | proved | `Modal/Golden` | For every function and bracket, with the constant of the code; convergence for unimodal functions with the exact ratio. |
| C55 Love-wave search rejects all-liquid models | partial | `Modal/Drive` | Violated: the test compares with nlay-1 instead of nlay, so every all-liquid model is searched at layer nlay and liquids over a solid half-space raise the error. Holds when a layer above the half-space is solid. |
| C56 SAC output applies time shift and damping removal exactly | proved | `Freq/Sac` | Exact arithmetic; the library transform is taken at its documentation; the start time is the one in the header. |
| C57 The kernel is the field excited in the layered medium | proved | `Kernel/Props`, `Kernel/Phys`, `Model1D/State` | Amplitude form for both variants, physical form over the complex numbers (dynamic: existence; static: existence and every such field agrees). |
| C58 Blanking the DS row loses nothing away from the epicentre | partial | `Kernel/Blank` | Dynamic kernel, free top: the row thrown away is a constant. Violated for a half-space top. The distributional step (inverse transform of a constant) and the static kernel are not covered. |
| C59 Derivative outputs are the gradient of the displacement output | proved | `Syn/Synth` | Green's functions and their derivative tables are assumed consistent; the axis case assumes the regularity of cylindrical harmonics (structure AxisRegular) |
| C60 Derived fields of static synthetics do not depend on the output frame | partial | `StaticSyn/Frame` | Violated between tabulated distances; proved at tabulated distances. |
| C61 Coulomb slip components superpose | proved | `StaticSyn/Fault` | Radiation factors for every azimuth; real arithmetic. |
| C62 Reported travel time is the first arrival | partial | `Travt/Head` | False: the loop over refractors ends at the first one whose critical ray is slower than the time so far, and misses faster layers behind it; proved when no layer in front ends the loop. |
| C63 Coulomb fault lines carry the moment of the described dislocation | proved | `StaticSyn/Moment` |  |
| C64 Wavenumber integrand is the cylindrical vector harmonic | proved | `Integ/Pk` | Exact arithmetic; j0, j1, jn are the Bessel functions given by Bessel's integral. |
| C65 Direct convergence adds back what it subtracts | partial | `Integ/Dcm`, `Integ/Dwm` | Holds when the discrete method covers the whole interval; violated when a Filon part follows, since that part skips the near-field entry and uses the asymptotic constants at another wavenumber. |
| C66 The Filon part takes over where the discrete part ends | partial | `Integ/Safim`, `Integ/Fim` | Holds for the adaptive method; the fixed-step method starts one Filon step (not one discrete step) after the last discrete point and overshoots the limit. |
| C67 The convergence tolerance takes effect in each integrator | partial | `Integ/Dwm`, `Integ/Fim` | Holds for the discrete part; in the fixed-step Filon part the test never holds. |
| C68 Frequency band option computes exactly the grid frequencies in the requested band | partial | `Freq/Band` | Proved when the band holds a grid frequency. Otherwise the next frequency above (or the last one) is computed. |
| C69 Denser sampling keeps the original samples | partial | `Freq/Sac` | Holds for odd lengths and for spectra that vanish at half the sampling rate; for even lengths that term is counted twice, C69_difference gives the exact excess. |
| C70 Exactly the selected Green's function files are written, with the vertical sense reversed once | proved | `Freq/Outputs` | All selections of sources, components and derivatives. |
| C71 Receiver files are read completely or refused | partial | `StaticSyn/PointFile` | Complete but for the separation of numbers: text such as 10-5 is read as two columns.  Hexadecimal numbers not modelled. |
| C72 The searches for phase velocities end, cover the range and report only roots | proved | `Modal/Search`, `Modal/Drive` | Both searches and their composition over layers at one frequency. |
| C73 Starting velocities of the root search resolve the expected roots | proved | `Modal/Drive` | The expected number of roots is shown continuous in the phase velocity, from the principal square roots of the code. |
| C74 The frequency option selects the frequencies asked for | partial | `Modal/Filter` | Violated for a range of periods (used as frequencies) and for a start below the step (moved to the step); holds otherwise. |
| C75 Group-velocity sensitivities are derivatives of the group velocity | partial | `Modal/Group` | The formula is exact; the value is exact where the phase sensitivity is affine between samples; violated at the last frequency, where the mixed derivative is taken as zero. Missing: error of the forward difference for curved sensitivities. |
| C76 Love-wave secular function and eigenfunctions are exact | proved | `Modal/LoveMode` | free surface over a half-space, the only boundary conditions accepted; exact complex arithmetic; no recursion singular; vertical wavenumbers of solids not zero |
| C77 Every accepted reference layer gives its own modes | partial | `Modal/LoveMode` | violated for the half-space: the function is that of the layer above and the eigenfunction divides by zero |
| C78 Love energy integrals are exact integrals over depth | proved | `Modal/Energy` | for every thin-layer step up to 100000 times the thinnest layer; for larger steps see C79 |
| C79 Every layer has its sensitivities | partial | `Modal/Energy` | violated for a layer thinner than a hundred-thousandth of the step, which is dropped; proved otherwise |
| C80 Love group velocity is the slope of the dispersion curve | proved | `Modal/Variation` | along a branch on which xb of every layer is continuous and no recursion matrix is singular, energy integral I1 not zero |
| C81 Love phase-velocity sensitivities are derivatives of the phase velocity | proved | `Modal/Variation` | along a branch as in C80; the sensitivities exist unless the program stops with an error (4k^2 I2 = 0) |
| C82 A Love mode adds the contribution of its pole | proved | `Modal/ModGrn`, `Modal/Residue` | The response at neighbouring wavenumbers is specified by the SH equations, contact conditions and the jump of C17; the residue is derived, not assumed. |
| C83 Derivatives of Love mode spectra | proved | `Modal/ModGrn` |  |
| C84 Blanking the dip-slip row at the surface changes nothing | proved | `Modal/ModGrn` | Holds at any receiver depth. |
| C85 Begin time and arrival marks of mode-sum traces | partial | `Modal/ModSum` | Violated: -Ep uses the unset header field, so traces begin before -12345 s; the marks are times between tops of layers, zero if source and receiver are in one layer. |
| C86 Zeros of the Rayleigh secular function are phase velocities | partial | `Modal/RaylMode`, `Modal/RaylEx` | Proved wherever the recursions the routine makes succeed. Violated where they do not: at the Rayleigh velocity of the top layer the function vanishes at every frequency although no wave exists. |
| C87 Rayleigh eigenfunctions are free waves | partial | `Modal/RaylMode`, `Modal/RaylEx` | Proved where the recursions and the normalisation succeed (and, above a contact of liquid and solid, where the inversion made when the P amplitude is zero exists). Violated where the row the amplitudes are taken from is zero: they are NaN. |
| C88 Rayleigh energy integrals are exact integrals over depth | proved | `Modal/RaylEnergy` |  |
| C89 Rayleigh group velocity is the slope of the dispersion curve | proved | `Modal/RaylVar` | The branch is any family of free P-SV waves that depends continuously on a parameter; C86 and C87 link it to zeros of the secular function. |
| C90 Rayleigh phase-velocity sensitivities are derivatives of the phase velocity | proved | `Modal/RaylVar` | λ ≠ 0 in every layer is part of the statement: the program divides by λ. |
| C91 A Rayleigh mode adds the contribution of its pole | proved | `Modal/RaylGrn` | The mode is simple (any two free waves of that wavenumber are proportional).  At a contact of liquid and solid with a vanishing amplitude a determinant is assumed non-zero, as in C87. |
| C92 Derivatives of Rayleigh mode spectra | partial | `Modal/RaylGrn`, `Modal/RaylGrnEx` | The depth derivative is proved for receivers in a solid.  In a liquid the program writes zero, which is not the derivative (C92_liquid_violated). |
| C93 Blanking the Rayleigh dip-slip row at the surface changes nothing | proved | `Modal/RaylGrn` |  |
| C94 Okada point source: the derivatives are derivatives | proved | `Okada/PointProp` | Dips within 1e-6 (cosine) of vertical, other than vertical itself, are treated by the program as vertical and excluded. |
| C95 Okada point source: stresses balance and the surface is free | proved | `Okada/PointProp` | Same exclusion of nearly vertical dips; depth at least 1e-6. |
| C96 Okada point source: the response is that of the requested source | proved | `Okada/PointProp` | Same exclusions; receivers whose depth is within 1e-6 of the source depth but not equal to it are excluded.  Uniqueness of the solution of the elastic problem is not proved. |
| C97 Okada point source: return codes | proved | `Okada/PointProp` |  |
| C98 Okada fault: the derivatives are derivatives | proved | `Okada/FiniteProp` | Dips whose cosine is within 1e-6 of zero without being zero are treated by the program as vertical and excluded. |
| C99 Okada fault: the response is the integral of point sources over the fault | proved | `Okada/FiniteProp` | Dips whose cosine is within 1e-6 of zero without being zero are treated by the program as vertical and excluded.  For opening the half-space response is that of the tensile point source of C96. |
| C100 Okada fault: stresses balance and the surface is free | proved | `Okada/FiniteProp` | Dips whose cosine is within 1e-6 of zero without being zero are treated by the program as vertical and excluded. |
| C101 Okada fault: return codes | proved | `Okada/FiniteProp` | Dips whose cosine is within 1e-6 of zero without being zero are treated by the program as vertical and excluded.  A failure because of the image leaves the sum over the real fault in the results. |
| C102 The Okada program and the synthesis mean the same by a point source | partial | `Okada/MainProp` | Holds for explosions, double couples, and cracks where λ=μ; receivers are moved by less than 2 mm, or 11 cm at the source itself.  False for other cracks: the scale is wrong by μ/λ (division by zero for λ=0).  Dips whose cosine is within 1e-6 of zero without being zero are treated by the program as vertical and excluded. |
| C103 The Okada program with a Coulomb file: what the columns mean | proved | `Okada/MainProp` | Dips whose cosine is within 1e-6 of zero without being zero are treated by the program as vertical and excluded.  Receivers of point sources are moved by less than 2 mm. |
| C104 The Okada program with a Coulomb file: when it fails | partial | `Okada/MainProp` | Proved for faults at or below the surface; a fault that sticks out of the half-space is accepted and gives a result.  Dips whose cosine is within 1e-6 of zero without being zero are treated by the program as vertical and excluded. |
| C105 Lamb's problem: the Rayleigh wave arrives at the Rayleigh speed | proved | `Lamb/RootsProp` | Over exact real arithmetic. |
| C106 Lamb's problem: the closed form is the contour integral of the compliance of the half-space | proved | `Lamb/LambProp` | For exact elliptic integrals (Ell.Exact) and exact real arithmetic. Not claimed: that the contour integral is the displacement in time (Cagniard-de Hoop). |
| C107 grt lamb1 gives one result for each time of the list | partial | `Lamb/CliProp` | Proved for two or more times and distinct roots. Violated: a list with one time is accepted and ts[1] is read past the end; -T0/0.3/0.1 loses its last time to rounding. |
| C108 A static Green's function does not depend on the rest of the grid | proved | `StaticGrn/Prop` | For an arbitrary kernel in exact real arithmetic. The largest distance enters the step of the wavenumber and the length scale, hence is part of the hypotheses; peak-trough averaging and Filon integration after a convergence test depend on the other distances by design and are excluded. |
| C109 grt static greenfn ends | partial | `StaticGrn/Ends` | Proved for lengths that are not negative. Violated: a negative -L is accepted, and without -K+f the search for the largest wavenumber never ends, for every kernel. |
| C110 The spectra at one distance do not depend on the other distances of the run | proved | `Freq/Distance` | For an arbitrary kernel in exact real arithmetic and given integration settings (the program derives its step from the largest distance). |
| C111 The Lamb solver's elliptic integral of the third kind is the integral | proved | `Lamb/EllProp` | In exact arithmetic, with the code's deviations from Carlson's final series. The rational approximations that grt_ellipticK and grt_ellipticE use are modelled but their error is not bounded here; it enters through the value of the first integral only. n = 1 divides by zero (C111_one). |
| C112 Kernel files hold the response of the layered medium | proved | `KernelProg/Props` | From the numbers of the options and the layers of the model file on, in exact arithmetic, for records without a failed inversion (a failure is not visible in the file, see C19) whose boundary reflections exist; the dip-slip row with both depths zero is blank (C58). No attenuation factor vanishes for any frequency of the list, which is proved. |
| C113 The lists of grt kernel are those asked for | partial | `KernelProg/Lists` | Proved in exact arithmetic for a start at zero or not below the step and positive steps. Violated: a start between zero and the step is moved to the step, a step dc ≤ 0 after cmin/cmax is accepted (undefined conversion, or empty files), and rounding can lose the last sample. |
| C114 The response at a frequency does not depend on the band of the run | partial | `KernelProg/Band` | Proved for models without attenuation. Violated for every pair of bands in a full space with a quality factor: the reference frequency of the attenuation law is the last frequency of the run (mentioned in the documentation of version 0.15), so -H changes the medium as well as the band. |
| C115 The travel-time table shows the distances asked for, each with its own times | partial | `Travt/TableRows`, `Travt/TableProp` | From the text of the option on, in double precision; times in exact arithmetic before they are printed with three decimals. Proved: rows and their times, exchange of the depths, ranges of whole numbers below 2^31, and for numbers with up to seven decimals and twelve digits that every distance shown is exactly r1 + i*dr unless a conversion is undefined, with a number of rows right up to one. Violated: -R0/300/0.57 converts 3e9 to int, -R0/0.3/0.1 loses its last row, decimals of 1e-8 are not seen, texts that are no numbers are shown and computed as something else. |
| C116 The text form of a trace has the times and amplitudes of its samples | partial | `Trace/Ascii` | Proved for begin time and length together not beyond two million sampling intervals: one line per sample, times within 0.4 intervals and strictly ascending, amplitudes to eight digits. Violated: begin 3000 s with 0.0001 s sampling prints equal times; nine digits would be needed to tell all amplitudes apart. |
| C117 Every module is called by its name with the arguments given | proved | `Files/Dispatch` | Which module runs and its arguments; the modules are those of the manual; the exit status (always zero once a module returns) is not modelled. |
| C118 The search for Rayleigh modes starts from the Rayleigh velocity of the uppermost solid | partial | `Modal/HalfSpaceProp` | Exact real arithmetic. Proved for Vp between sqrt(2) and 2 times Vs and for Vp above sqrt(6) times Vs: the estimate is within 2e-8 Vs of the only Rayleigh velocity. Violated for every Vp between 2.44 and sqrt(6) times Vs: the estimate is negative, below -0.45 Vs. Not decided between 2 and 2.44 (where it fails in part, from about 2.26 on). |
| C119 The search for Rayleigh modes starts from the Scholte velocity of every sea floor | proved | `Modal/Scholte` | Exact real arithmetic; the Scholte equation is solved by a velocity not above the estimate and closer to it than 1e-12 Vs. |
| C120 Every Love wave lies in the velocities that are searched | partial | `Modal/RangeProp` | Proved for all models in which no liquid lies under a solid, with a solid half-space: every Love wave is strictly inside the range, and refused models have no Love waves. Violated for a solid plate on a liquid half-space whose sound is not faster than the shear waves of the plate: all Love waves lie outside the range, and there are such waves. The margin `vgap` (-T+v) that is cut from both ends is not part of the statement. |
| C121 A number given to the Python interface is the number the program works with | partial | `Python/Numbers` | Numbers with at most fifteen significant digits arrive unchanged, alone and in lists; every number arrives to within a relative error of 6e-15. Violated for other doubles: 1/3 arrives as another number, and the list [100, 100+2^-46] is accepted by Python and refused by the program. |
| C122 `compute_syn` makes the program work with exactly the source and the values of the call | partial | `Python/SynProp` | Proved for numbers of at most fifteen digits and time functions `letter/text` without blanks. Violated for a time function file whose name has a space: the program looks for the part before the space. |
| C123 `compute_grn` makes the program work with exactly the values of the call | partial | `Python/GrnProp` | Proved for numbers of at most fifteen digits, not above 1e14 in -N, -L and -K, and upsampling_n >= 0. Violated: a negative upsampling_n is accepted and becomes 2^64 more; ref_first_p=True with the default delayT0=0 is always refused; values of 1e15 and more in -L are refused because their text has a plus sign. |
| C124 `compute_static_grn` makes the program work with exactly the values of the call | partial | `Python/StaticGrnProp`, `Python/Axis` | Proved for numbers of at most fifteen digits, not above 1e14 in -L and -K, and ranges of whole numbers below 1e14. Ranges of fractions (C124_near): every coordinate to 2^-51 of \|a\| + i d, and the right number of them unless the quotient is within 2^-51 of itself next to a whole number. Violated there: a range whose quotient is rounded down loses its last coordinate (0/0.3/0.1 ends at 0.2). |
| C125 `compute_static_syn` makes the program work with exactly the values of the call | partial | `Python/StaticSynProp`, `Python/AxisSyn` | Proved for numbers of at most fifteen digits, sizes of parts not above 1e14, ranges of whole numbers below 1e14 and a file of faults whose path has no plus sign. Ranges of fractions (C125_near): as in C124. Violated: such a path is refused, or (p+i<dL>/<dW>) another file is read; 0/0.3/0.1 ends at 0.2. |
| C126 `compute_okada` makes the program work with exactly the values of the call | partial | `Python/OkadaProp`, `Python/Axis` | Proved for numbers of at most fifteen digits, ranges of whole numbers below 1e14 and a file of faults whose path has no plus sign. Ranges of fractions (C126_near): as in C124. Violated: such a path is refused; a range whose quotient is rounded down loses its last coordinate (0/0.3/0.1 ends at 0.2). |
| C127 Statistics read in Python are those written, and the plotted integrand is the one summed up | partial | `Python/Stats` | Files: proved for all contents. Curves: proved over the reals for distances above 1e-8. Violated: at distance 0 the second part of sources of order 1 is not a number in Python, the program uses the limit. |
| C128 Traces processed in Python are those the program gives | proved | `Python/Stream` | Exact arithmetic. Equal to the program's result wherever that is defined: signals not longer than the trace. For longer signals the program reads outside its array (C32); Python then gives the circular convolution or, with a damping, an exception. |
| C129 `grt eigenv -F` searches the frequencies (or periods) asked for, in ascending order | partial | `Modal/Options`, `Python/Axis` | Order and sign: proved in double precision for every text. Values: proved for whole numbers below 1e14 with f1 = 0 or f1 >= df, and for fractions with f1 >= df up to rounding (C129_near: 2^-51, and the right number unless the quotient is next to a whole number). Violated: f1 between 0 and df is replaced by df (-F1/10/2 searches 2, 4, ..., 10); an end below df is exceeded (-F0/1/2 searches 2); -F0.1/0.3/0.1 leaves out 0.3. |
| C130 Without `+i` a fault is divided by the finest sampling of the library | proved | `StaticSyn/SubSize` | Exact numbers. Consequence (C130_grid): for a square grid of step h with n steps the parts are not larger than h/(2n), because the distances of neighbouring grid points are that close. |
| C131 Kernels read by `read_kernels_freqs` are those of the run at the velocities asked for | partial | `Python/Kernels` | Proved with the frequency shown in the name of the file (six digits), which is that of the run to 5.1e-6 of itself. Violated: velocities are computed from the rounded frequency, so for 1/3 Hz the largest recorded velocity is refused; frequencies that agree in six digits have no order. |
| C132 `grt eigenv -X` prints a table of the secular function over the range asked for | partial | `Modal/Table` | Proved for the adaptive search if some piece of the starting velocities is as long as the gap, and for the fixed step except for its second row. Violated: for a range shorter than the gap (or two times vgap) the first row is read from an interval never set; with a fixed step longer than the range the second row lies above it. Velocities are real numbers. |
| C133 `gen_triangle_wave` gives the triangle of the length asked for | partial | `Python/Triangle` | Proved for lengths of an even number of intervals; for all lengths the samples lie between 0 and 1, start at 0 and reach 1. Violated for every odd number of intervals: the rise is one interval longer than the fall, and a length of one interval gives the step 0, 1. Times are real numbers. |
| C134 Strain, rotation, stress and returned streams belong to the last synthesis written to the directory | partial | `Files/SynDir` | Proved if the last run writes derivatives and is in the frame ZNE, or no earlier run wrote derivatives in that frame; for the stream if the directory was empty. Violated: a run in ZRT after one in ZNE (both with derivatives) gives derived fields of the earlier run, with Z and its vertical derivative of the later; a run without derivatives after one with them is combined with the old derivatives; old components are returned in the stream. |
| C135 The Green's functions combined in a synthesis belong to one run of grt greenfn | partial | `Files/GrnDir` | Proved if the last run has all sources (and derivatives) the synthesis needs, whatever was in the directory before. A directory written once is refused exactly if something is lacking. In general each file is of the last run that wrote this file. Violated: after a run for explosions and double couples and a later one for explosions only, moment tensors and tensile cracks mix both; if the later one has more samples, samples are read outside the arrays. |
| C136 compute_strain, compute_rotation and compute_stress return the components of the call | partial | `Files/PostDir` | Proved for histories in which all syntheses are in one frame, whatever calls came before; in general the stream holds the components of the call and traces left under other names (C136_call). Violated: after a synthesis in ZRT with strain and one in ZNE with strain, the second stream also holds ZR of the first; the same for rotations and stresses. |
