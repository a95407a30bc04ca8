{
 "claims": [
  {
   "property": "C01",
   "status": "partial",
   "theorems": [
    "Verif.BufferAllocator.C01_live_disjoint_partial",
    "Verif.BufferAllocator.C01_wrapped_request_escapes"
   ],
   "note": "false of the code when numSamples*channels wraps size_t (C01_wrapped_request_escapes: 2^63 stereo frames); proved for all histories whose requests do not wrap"
  },
  {
   "property": "C02",
   "status": "proved",
   "theorems": [
    "Verif.BufferAllocator.C02_accounting"
   ],
   "note": "histories whose requests do not wrap size_t"
  },
  {
   "property": "C03",
   "status": "proved",
   "theorems": [
    "Verif.BufferAllocator.C03_release_all_pristine",
    "Verif.BufferAllocator.C03_release_any_order"
   ],
   "note": "histories whose requests do not wrap size_t"
  },
  {
   "property": "C04",
   "status": "proved",
   "theorems": [
    "Verif.BufferAllocator.C04_alloc_iff_gap"
   ],
   "note": "histories whose requests do not wrap size_t"
  },
  {
   "property": "C05",
   "status": "proved",
   "theorems": [
    "Verif.BufferAllocator.C05_first_fit_lowest"
   ],
   "note": "histories whose requests do not wrap size_t"
  },
  {
   "property": "C06",
   "status": "proved",
   "theorems": [
    "Verif.BufferAllocator.C06_release_iff_live",
    "Verif.BufferAllocator.C06_double_release"
   ],
   "note": "histories whose requests do not wrap size_t"
  },
  {
   "property": "C07",
   "status": "proved",
   "theorems": [
    "Verif.BufferAllocator.C07_calls_keep_others",
    "Verif.BufferAllocator.C07_fill_keeps_others"
   ],
   "note": "histories whose requests do not wrap size_t"
  },
  {
   "property": "C08",
   "status": "proved",
   "theorems": [
    "Verif.BufferAllocator.C08_table_never_overrun",
    "Verif.BufferAllocator.C08_empty_table",
    "Verif.BufferAllocator.C08_grant_size"
   ],
   "note": "all histories, wrapped requests included"
  },
  {
   "property": "C09",
   "status": "proved",
   "theorems": [
    "Verif.Buffer.C09_fillMono_roundtrip",
    "Verif.Buffer.C09_fillStereo_roundtrip",
    "Verif.Buffer.C09_fillInterleaved_roundtrip",
    "Verif.Buffer.C09_stereo_eq_interleaved",
    "Verif.Buffer.C09_wrong_format_rejected"
   ],
   "note": "any arithmetic; source memory outside the buffer"
  },
  {
   "property": "C10",
   "status": "partial",
   "theorems": [
    "Verif.Buffer.C10_accessors_safe",
    "Verif.Buffer.C10_mono_stereo_agree",
    "Verif.Buffer.C10_null_or_empty_silent",
    "Verif.Buffer.C10_bad_channels_read",
    "Verif.Buffer.C10_duration"
   ],
   "note": "the clause about invalid buffers is false for a bad channel count (C10_bad_channels_read); proved for null and empty buffers"
  },
  {
   "property": "C11",
   "status": "proved",
   "theorems": [
    "Verif.AudioLoop.C11_double_buffer",
    "Verif.AudioLoop.C11_sides_differ",
    "Verif.AudioLoop.C11_isolation",
    "Verif.AudioCallbackHandler.C11_handler"
   ],
   "note": "any sample type; sequential interleavings (thread-level races are outside the model)"
  },
  {
   "property": "C12",
   "status": "proved",
   "theorems": [
    "Verif.BufferAllocator.C12_uninitialised",
    "Verif.BufferAllocator.C12_init_reset"
   ],
   "note": ""
  },
  {
   "property": "C13",
   "status": "proved",
   "theorems": [
    "Verif.C13_ar_output_in_unit"
   ],
   "note": "IEEE binary32 model, libm constrained by LibmSpec"
  },
  {
   "property": "C14",
   "status": "proved",
   "theorems": [
    "Verif.C14_adsr_output_in_unit",
    "Verif.C14_nan_sustain_escapes"
   ],
   "note": "non-NaN arguments; C14_nan_sustain_escapes shows the NaN exclusion is needed"
  },
  {
   "property": "C15",
   "status": "proved",
   "theorems": [
    "Verif.C15_ar_gate_edges",
    "Verif.C15_ar_idle_silent",
    "Verif.C15_ar_stage_gate",
    "Verif.C15_adsr_gate_edges",
    "Verif.C15_adsr_tick_stages",
    "Verif.C15_adsr_done_idle"
   ],
   "note": ""
  },
  {
   "property": "C16",
   "status": "partial",
   "theorems": [
    "Verif.C16_ar_release_finishes",
    "Verif.C16_adsr_release_finishes",
    "Verif.C16_ar_attack_finishes_partial",
    "Verif.C16_adsr_attack_finishes_partial",
    "Verif.C16_adsr_attack_iff",
    "Verif.C16_ar_attack_iff",
    "Verif.C16_adsr_attack_time",
    "Verif.C16_attack_can_stall",
    "Verif.C16_adsr_decay_finishes_partial",
    "Verif.C16_decay_can_stall"
   ],
   "note": "Binary32. Release always finishes. The attack part is false of the code for slow attacks, and exactly these: it finishes if and only if the coefficient is at most 1-501/2^24 (C16_adsr_attack_iff), which is attack times below about 33500 samples, 0.7 s at 48 kHz (C16_adsr_attack_time). The decay finishes for coefficients up to 1-2^-15 and stalls above 1-2^-17."
  },
  {
   "property": "C17",
   "status": "proved",
   "theorems": [
    "Verif.C17_generators",
    "Verif.C17_combining",
    "Verif.C17_filters",
    "Verif.C17_ladders",
    "Verif.C17_checked",
    "Verif.C17_xplay",
    "Verif.C17_memoryless",
    "Verif.C17_memory",
    "Verif.Downsampler.C17_downsampler",
    "Verif.FVerb.C17_reverb"
   ],
   "note": "every unit generator, in every arithmetic; C17_memory states the split for the index loops on memory with arbitrary pointers, C56 ties those loops to the list functions"
  },
  {
   "property": "C18",
   "status": "partial",
   "theorems": [
    "Verif.LagLinear.C18_lands_exactly",
    "Verif.LagLinear.C18_zero_time_jumps",
    "Verif.LagLinear.C18_set_time_zero",
    "Verif.LagLinear.C18_set_time_restarts",
    "Verif.LagLinear.C18_set_value",
    "Verif.LagLinear.C18_length_float",
    "Verif.LagLinear.C18_straight_line",
    "Verif.LagLinear.C18_long_ramp_undefined",
    "Verif.LagLinear.C18_float_overshoots"
   ],
   "note": "landing and length proved in binary32; the straight line in ideal arithmetic; in binary32 the ramp can overshoot (C18_float_overshoots) and a very long ramp is undefined behaviour (C18_long_ramp_undefined)"
  },
  {
   "property": "C19",
   "status": "partial",
   "theorems": [
    "Verif.Lag.C19_hull",
    "Verif.Lag.C19_hull_from",
    "Verif.Lag.C19_decay",
    "Verif.Lag.C19_passthrough_float",
    "Verif.Lag.C19_range_float",
    "Verif.Lag.C19_float_leaves_hull"
   ],
   "note": "ideal arithmetic proved; in binary32 the exact hull is false by an ulp (C19_float_leaves_hull), symmetric power-of-two ranges are kept (C19_range_float)"
  },
  {
   "property": "C20",
   "status": "partial",
   "theorems": [
    "Verif.XLine.C20_closed_form",
    "Verif.XLine.C20_monotone",
    "Verif.XLine.C20_holds",
    "Verif.XLine.C20_done_float",
    "Verif.XLine.C20_long_line_never_done",
    "Verif.XLine.C20_zero_start_flips_sign",
    "Verif.XLine.C20_no_duration"
   ],
   "note": "shape proved in ideal arithmetic, completion in binary32 up to 2^24 samples; beyond that the line never finishes (C20_long_line_never_done)"
  },
  {
   "property": "C21",
   "status": "partial",
   "theorems": [
    "Verif.Phasor.C21_in_range",
    "Verif.Phasor.C21_congruent",
    "Verif.Phasor.C21_frequency",
    "Verif.Phasor.C21_trigger",
    "Verif.Phasor.C21_trigger_block",
    "Verif.Phasor.C21_move_range",
    "Verif.Phasor.C21_reset_pos",
    "Verif.Phasor.C21_range_float_partial",
    "Verif.Phasor.C21_hits_end",
    "Verif.Phasor.C21_empty_range_drifts"
   ],
   "note": "ideal arithmetic proved; in binary32 the open end is reached (C21_hits_end), the closed range from 0 is kept"
  },
  {
   "property": "C22",
   "status": "proved",
   "theorems": [
    "Verif.SinOsc.C22_bounded",
    "Verif.SinOsc.C22_phase_accumulates",
    "Verif.SinOsc.C22_negative_frequency_runs_away",
    "Verif.SinOsc.C22_high_frequency_runs_away"
   ],
   "note": "binary32 for 0 <= f <= sr/2; the two runaway theorems show the frequency range is needed"
  },
  {
   "property": "C23",
   "status": "proved",
   "theorems": [
    "Verif.LFTri.C23_bounded",
    "Verif.LFTri.C23_triangle",
    "Verif.LFTri.C23_continuous",
    "Verif.LFTri.C23_waveform"
   ],
   "note": "bounds in binary32, shape and continuity in ideal arithmetic"
  },
  {
   "property": "C24",
   "status": "partial",
   "theorems": [
    "Verif.SawDPW.C24_bounded_by_two_partial",
    "Verif.SawDPW.C24_documented_bound_false",
    "Verif.SawDPW.C24_reset_click",
    "Verif.SawDPW.C24_zero_frequency_nan",
    "Verif.SawDPW.C24_moving_frequency_partial",
    "Verif.SawDPW.C24_frequency_change_spike",
    "Verif.SawDPW.C24_bounded_by_two_float_partial",
    "Verif.SawDPW.C24_moving_frequency_float_partial"
   ],
   "note": "the documented bound 1 is false (C24_documented_bound_false, and a frequency change alone can spike above 80: C24_frequency_change_spike); the steady-state bound 2 and the bound 2f/g across a frequency change from f to g are proved in ideal arithmetic, and in single precision with the rounding (at most 2.005 for 20 Hz at 48 kHz)"
  },
  {
   "property": "C25",
   "status": "proved",
   "theorems": [
    "Verif.Pan2.C25_equal_power",
    "Verif.Pan2.C25_monotone",
    "Verif.Pan2.C25_tick_eq_process",
    "Verif.Pan2.C25_equal_power_float",
    "Verif.Pan2.C25_nan_not_clamped"
   ],
   "note": "equal power exactly in ideal arithmetic, with an explicit error bound in binary32"
  },
  {
   "property": "C26",
   "status": "partial",
   "theorems": [
    "Verif.Balance2.C26_equal_power",
    "Verif.Balance2.C26_tick_eq_process",
    "Verif.Balance2.C26_tick_eq_process_unit_float",
    "Verif.Balance2.C26_setLevel_keeps_position_partial",
    "Verif.Balance2.C26_mute_loses_position",
    "Verif.Balance2.C26_setLevel_not_inverse",
    "Verif.Balance2.C26_gain_range_float"
   ],
   "note": "false of the code after setLevel(0) (C26_mute_loses_position) and in binary32 (C26_setLevel_not_inverse); proved for nonzero levels in ideal arithmetic"
  },
  {
   "property": "C27",
   "status": "partial",
   "theorems": [
    "Verif.XFade2.C27_equal_power",
    "Verif.XFade2.C27_right_end_leaks",
    "Verif.XFade2.C27_tick_eq_process",
    "Verif.XFade2.C27_setLevel_keeps_position_partial",
    "Verif.XFade2.C27_zero_level_sticks",
    "Verif.XFade2.C27_divides_by_zero"
   ],
   "note": "setLevel loses the position after level 0 and the right end leaks in binary32; the rest is proved in ideal arithmetic"
  },
  {
   "property": "C28",
   "status": "partial",
   "theorems": [
    "Verif.Wrap.C28_wrap_range",
    "Verif.Wrap.C28_wrap_idempotent",
    "Verif.Wrap.C28_wrap_periodic",
    "Verif.Wrap.C28_empty_range",
    "Verif.Wrap.C28_tick_eq_process",
    "Verif.Wrap.C28_wrap_hits_hi",
    "Verif.Wrap.C28_wrap_leaves_range"
   ],
   "note": "proved in ideal arithmetic; false in binary32 (C28_wrap_hits_hi, C28_wrap_leaves_range)"
  },
  {
   "property": "C29",
   "status": "partial",
   "theorems": [
    "Verif.C29_linlin",
    "Verif.C29_linlin_float",
    "Verif.C29_high_end_inexact"
   ],
   "note": "proved in ideal arithmetic; in binary32 the low end is exact and the high end is not (C29_high_end_inexact)"
  },
  {
   "property": "C30",
   "status": "proved",
   "theorems": [
    "Verif.C30_dbamp",
    "Verif.C30_dbamp_onto"
   ],
   "note": "ideal arithmetic"
  },
  {
   "property": "C31",
   "status": "proved",
   "theorems": [
    "Verif.DCBlock.C31_coefficient",
    "Verif.DCBlock.C31_constant_input",
    "Verif.DCBlock.C31_removes_dc",
    "Verif.DCBlock.C31_stereo_two_monos"
   ],
   "note": "ideal arithmetic"
  },
  {
   "property": "C32",
   "status": "proved",
   "theorems": [
    "Verif.OnePoleLPF.C32_hull",
    "Verif.OnePoleLPF.C32_constant_input",
    "Verif.OnePoleLPF.C32_converges",
    "Verif.OnePoleLPF.C32_tickMod",
    "Verif.OnePoleLPF.C32_range_float"
   ],
   "note": "ideal arithmetic, and power-of-two ranges in binary32"
  },
  {
   "property": "C33",
   "status": "proved",
   "theorems": [
    "Verif.Downsampler.C33_ready",
    "Verif.Downsampler.C33_read_empty",
    "Verif.Downsampler.C33_process_eq_loop",
    "Verif.Downsampler.C33_read_hull",
    "Verif.Downsampler.C33_dc",
    "Verif.StereoDownsampler.C33_stereo_independent",
    "Verif.StereoDownsampler.C33_stereo_ready",
    "Verif.StereoDownsampler.C33_stereo_process"
   ],
   "note": "control flow in any arithmetic, hull in ideal arithmetic"
  },
  {
   "property": "C34",
   "status": "partial",
   "theorems": [
    "Verif.C34_comb_safe_partial",
    "Verif.C34_write_inside",
    "Verif.C34_nan_delay_undefined",
    "Verif.C34_hang"
   ],
   "note": "false for NaN delay times (C34_nan_delay_undefined) and for absurd sample rates (C34_hang: the wrap loop never ends); proved for sample rates and line lengths up to 2^22, all histories, inputs and decay times"
  },
  {
   "property": "C35",
   "status": "proved",
   "theorems": [
    "Verif.C35_comb_recurrence",
    "Verif.C35_comb_recurrence_float",
    "Verif.C35_gain_ideal",
    "Verif.C35_echoes",
    "Verif.C35_gain_float",
    "Verif.C35_zero_delay_is_longest"
   ],
   "note": "recurrence in ideal arithmetic for every whole delay of at least one sample, and to the last bit in binary32 for inputs within one; gain bound in binary32; C35_zero_delay_is_longest describes delay 0"
  },
  {
   "property": "C36",
   "status": "proved",
   "theorems": [
    "Verif.C36_dcblock_linear",
    "Verif.C36_onepole_linear",
    "Verif.C36_rlpf_linear",
    "Verif.C36_comb_linear",
    "Verif.C36_comb_linear_reset",
    "Verif.C36_dcblock_silent",
    "Verif.C36_onepole_silent",
    "Verif.C36_rlpf_silent",
    "Verif.C36_comb_silent"
   ],
   "note": "Linearity in ideal arithmetic (rounding makes it false in floats); silence bit-exact."
  },
  {
   "property": "C37",
   "status": "proved",
   "theorems": [
    "Verif.RLPF.C37_difference_equation",
    "Verif.RLPF.C37_stable",
    "Verif.RLPF.C37_stable_any_rate",
    "Verif.RLPF.C37_dc_gain",
    "Verif.RLPF.C37_init_unclamped_unstable"
   ],
   "note": "ideal arithmetic"
  },
  {
   "property": "C38",
   "status": "partial",
   "theorems": [
    "Verif.BufRd.C38_safe",
    "Verif.BufRd.C38_nan_undefined",
    "Verif.BufRd.C38_no_buffer_silent",
    "Verif.BufRd.C38_mono_is_left",
    "Verif.BufRd.C38_whole_loop",
    "Verif.BufRd.C38_clamp",
    "Verif.BufRd.C38_tiny_negative_phase",
    "Verif.BufRd.C38_clamp_cubic_wraps",
    "Verif.BufRd.C38_linear_between",
    "Verif.BufRd.C38_linear_loop",
    "Verif.BufRd.C38_linear_hull_ideal",
    "Verif.BufRd.C38_periodic",
    "Verif.BufRd.C38_right_channel"
   ],
   "note": "Safety for every finite phase, whole-phase reads, clamping and mono = left proved in single precision; linear interpolation between neighbours in single precision for phases inside the buffer (up to 2^24 frames) and for every phase in ideal arithmetic; periodicity in ideal arithmetic. Negations: NaN phase is an undefined conversion, a tiny negative phase rounds up to numSamples and reads silence, cubic interpolation in clamp mode wraps to the other end of the buffer."
  },
  {
   "property": "C39",
   "status": "proved",
   "theorems": [
    "Verif.XPlay.C39_silent",
    "Verif.XPlay.C39_process_split",
    "Verif.XPlay.C39_window",
    "Verif.XPlay.C39_bounce_positions",
    "Verif.XPlay.C39_loop_positions",
    "Verif.XPlay.C39_bounce_positions_float",
    "Verif.XPlay.C39_float_safe",
    "Verif.XPlay.C39_float_history",
    "Verif.XPlay.C39_bounce_turn_reads_first_frame",
    "Verif.XPlay.C39_mode_chosen"
   ],
   "note": "silence without material in every arithmetic; window invariant over all call histories and read positions in exact arithmetic; in single precision every read is inside the buffer for every history (buffers up to 2^40 frames), and bounce positions stay between the loop points; a bounce position equal to the buffer end is wrapped by the reader to the first frame (C39_bounce_turn_reads_first_frame)"
  },
  {
   "property": "C40",
   "status": "proved",
   "theorems": [
    "Verif.LFNoise2.C40_full_period",
    "Verif.LFNoise2.C40_random_range",
    "Verif.LFNoise2.C40_one_reached",
    "Verif.LFNoise2.C40_output_range",
    "Verif.LFNoise2.C40_reset_like_init",
    "Verif.LFNoise2.C40_set_seed"
   ],
   "note": ""
  },
  {
   "property": "C41",
   "status": "proved",
   "theorems": [
    "Verif.TapeFollower.C41_follower",
    "Verif.TapeFollower.C41_nan_sticks",
    "Verif.Tape.C41_bounded",
    "Verif.Tape.C41_stereo_left_is_mono"
   ],
   "note": "output range in binary32 for finite sane inputs, follower hull in ideal arithmetic"
  },
  {
   "property": "C42",
   "status": "proved",
   "theorems": [
    "Verif.ExampleVoice.C42_blocks",
    "Verif.ExampleVoice.C42_bounded",
    "Verif.ExampleVoice.C42_idle_silent",
    "Verif.ExampleVoice.C42_nan_amplitude"
   ],
   "note": "Single precision, rounding included, for every history of calls whose parameters are in the stated ranges; a NaN amplitude is shown not to be clamped."
  },
  {
   "property": "C43",
   "status": "partial",
   "theorems": [
    "Verif.SuperSaw.C43_blocks",
    "Verif.SuperSaw.C43_idle_silent",
    "Verif.SuperSaw.C43_finite",
    "Verif.SuperSaw.C43_bounded",
    "Verif.SuperSaw.C43_bounded_float",
    "Verif.SuperSaw.C43_zero_frequency_nan"
   ],
   "note": "silence and finiteness are proved bit-exactly for every history with pitches from 1 Hz to a quarter of the sample rate, the bound 2*sqrt(7)*vibrato ratio*envelope in ideal arithmetic and, with the rounding, in single precision; for every history it is false: a pitch of 0 Hz gives NaN while idle (C43_zero_frequency_nan)"
  },
  {
   "property": "C44",
   "status": "proved",
   "theorems": [
    "Verif.Stilson.C44_table_in_range",
    "Verif.Stilson.C44_setters_defined",
    "Verif.Stilson.C44_huge_cutoff_undefined",
    "Verif.Stilson.C44_limited",
    "Verif.Stilson.C44_init_defined",
    "Verif.Stilson.C44_nan_mutes"
   ],
   "note": "Bit-exact floats. Table indexing in range in every arithmetic; setters defined for |cutoff| <= 64 sample rates, undefined (proved witness) for 1e9 Hz at 48 kHz; every output of every call sequence within 0.95 even for NaN/inf inputs; a NaN input mutes the filter for good."
  },
  {
   "property": "C45",
   "status": "partial",
   "theorems": [
    "Verif.C45_order",
    "Verif.C45_init_ignores_garbage",
    "Verif.C45_order_recomputed",
    "Verif.C45_krajeski_order_matters",
    "Verif.C45_krajeski_partial",
    "Verif.C45_musicdsp_divisor",
    "Verif.C45_oberheim_divisor",
    "Verif.C45_improved_divisor",
    "Verif.MusicDSP.C45_musicdsp_divisor_float",
    "Verif.Oberheim.C45_oberheim_divisor_float",
    "Verif.Improved.C45_improved_divisor_float"
   ],
   "note": "Order independence proved for six ladders in every arithmetic; false for Krajeski (setCutoff does not refresh gRes: proved counterexample) where only setting cutoff before resonance is right. Divisors proved bounded away from zero in ideal arithmetic and, with every rounding, in double precision (MusicDSP for every finite cutoff, Oberheim up to 0.45 of the sample rate, Improved for every cutoff that is not NaN)."
  },
  {
   "property": "C46",
   "status": "proved",
   "theorems": [
    "Verif.C46_silence",
    "Verif.C46_stilson_silence",
    "Verif.C46_finite_coefficients",
    "Verif.C46_reset_forgets"
   ],
   "note": "Bit-exact floats, libm under Libm64Spec. All seven ladders, fresh or after any signal plus reset, map silence to exact silence for ordinary settings and for any finite coefficients; reset forgets the signal in every arithmetic."
  },
  {
   "property": "C47",
   "status": "proved",
   "theorems": [
    "Verif.RKSimulation.C47_clip",
    "Verif.RKSimulation.C47_clip_double",
    "Verif.RKSimulation.C47_makeup",
    "Verif.RKSimulation.C47_oversample",
    "Verif.RKSimulation.C47_slew"
   ],
   "note": "Odd, monotone, bounded by 2 in ideal arithmetic after every call history; bounded by 2+2^-48 in double for every non-NaN; make-up gain in [0.828,5] bit-exact for every finite cutoff and any sample rate; oversampling at least 1; state slew bound."
  },
  {
   "property": "C48",
   "status": "proved",
   "theorems": [
    "Verif.FVerbDSP.C48_delays_fit",
    "Verif.FVerbDSP.C48_lines",
    "Verif.FVerbDSP.C48_lengths"
   ],
   "note": "Every int sample rate (float DSP): all integer delays are smaller than their lines, and for every history of blocks and clears the run on the masked arrays returns exactly what unbounded ideal delays return. Arithmetic is bit-exact binary32."
  },
  {
   "property": "C49",
   "status": "partial",
   "theorems": [
    "Verif.FVerb.C49_refines_partial",
    "Verif.FVerb.C49_exact",
    "Verif.FVerb.C49_clamped",
    "Verif.FVerb.C49_defaults",
    "Verif.FVerb.C49_nan_unclamped",
    "Verif.FVerb.C49_empty_block",
    "Verif.FVerb.C49_copy"
   ],
   "note": "Explicit heap with pointers. For all programs without copies the wrapper is exactly the memory-free specification, frees everything, and clamps all non-NaN parameters. False in general: an empty first block dereferences null, copies double free, NaN is not clamped (all proved)."
  },
  {
   "property": "C50",
   "status": "partial",
   "theorems": [
    "Verif.C50_ownership_partial",
    "Verif.C50_destroy_without_init",
    "Verif.C50_reinit_leaks",
    "Verif.C50_reinit_leaks_all",
    "Verif.C50_copy_double_free"
   ],
   "note": "false of the code: destruction without init, repeated init and copies are unsafe; proved for histories with one init per object and no copies"
  },
  {
   "property": "C51",
   "status": "partial",
   "theorems": [
    "Verif.Krajeski.C51_krajeski",
    "Verif.Oberheim.C51_oberheim",
    "Verif.Oberheim.C51_oberheim_unit",
    "Verif.RKSimulation.C51_rk",
    "Verif.Microtracker.C51_microtracker_partial",
    "Verif.Microtracker.C51_microtracker_half_partial",
    "Verif.Microtracker.C51_microtracker_float_partial",
    "Verif.MusicDSP.C51_musicdsp_blows_up",
    "Verif.Improved.C98_improved",
    "Verif.RKSimulation.C98_rk"
   ],
   "note": "Ideal arithmetic, every input and every history of setter calls: Krajeski |out| <= 1 for cutoffs up to 0.3 of the sample rate (3.85 up to Nyquist), Oberheim <= max 1 (tan^4), Runge-Kutta <= 5(3 + 16 pi top/sr) for any drive and oversampling, Microtracker for resonance up to one half (35.5 (M + 17.4) for inputs up to M; a sharper bound below 0.2499). False of MusicDSP: a full-scale square wave at cutoff 20 kHz, 44.1 kHz and full resonance gives NaN for ever after 28 samples (bit-exact, sin only assumed accurate to one ulp). With every rounding: Krajeski and Oberheim (C97), Improved <= 88.75 and Runge-Kutta <= 160 (C98), Stilson (C44), Microtracker up to resonance one half (same bound, inputs up to 16, cutoffs zero or at least 2^-10 Hz). Missing: Microtracker at resonances above one half."
  },
  {
   "property": "C52",
   "status": "partial",
   "theorems": [
    "Verif.XPlay.C52_init_drops_buffer",
    "Verif.XPlay.C52_buffer_kept_partial",
    "Verif.XPlay.C52_mute"
   ],
   "note": "false of the code as stated: init() re-initialises the reader, which forgets its buffer while the player still holds one, so the player is mute until setBuffer is called again (C52_init_drops_buffer, C52_mute); proved for the order init then setBuffer"
  },
  {
   "property": "C53",
   "status": "partial",
   "theorems": [
    "Verif.XPlay.C53_bounce_heads_equal"
   ],
   "note": "false of the code: in bounce mode both heads read the same position for every state; the negation is proved for all states"
  },
  {
   "property": "C54",
   "status": "partial",
   "theorems": [
    "Verif.XPlay.C54_setStartEnd_hangs",
    "Verif.XPlay.C54_setStartEnd_returns_partial"
   ],
   "note": "false of the single-precision code: after an ordinary history setStartEnd loops forever because adding the window no longer changes the head (C54_setStartEnd_hangs); it returns for every state in exact arithmetic"
  },
  {
   "property": "C55",
   "status": "partial",
   "theorems": [
    "Verif.ExampleVoice.C55_frequency_stuck",
    "Verif.ExampleVoice.C55_base_frequency_partial",
    "Verif.ExampleVoice.C55_pitch_off_forever"
   ],
   "note": "False as stated: setting the depth to zero leaves the oscillator at the last modulated pitch for ever. Proved when the frequency is set after the depth."
  },
  {
   "property": "C56",
   "status": "proved",
   "theorems": [
    "Verif.C56_map",
    "Verif.C56_gen",
    "Verif.C56_gen_stereo",
    "Verif.C56_gen_stereo_same",
    "Verif.C56_map_stereo",
    "Verif.C56_gen_outside",
    "Verif.C56_overlap_smears"
   ],
   "note": "the four loop shapes of the process functions on a memory with aliasing pointers, any sample type and any tick function"
  },
  {
   "property": "C57",
   "status": "partial",
   "theorems": [
    "Verif.C57_generators",
    "Verif.C57_notes",
    "Verif.C57_filters",
    "Verif.C57_checked",
    "Verif.C57_downsampler",
    "Verif.C57_voice",
    "Verif.C46_reset_forgets",
    "Verif.FVerb.C57_reverb",
    "Verif.C57_supersaw_partial",
    "Verif.C57_supersaw_vibrato_kept",
    "Verif.C57_supersaw_reset_remembers"
   ],
   "note": "proved for every unit generator except SuperSaw, whose reset keeps the vibrato phases and nothing else (C57_supersaw_partial, C57_supersaw_reset_remembers), and ExampleVoice with its vibrato off (C55)"
  },
  {
   "property": "C58",
   "status": "proved",
   "theorems": [
    "Verif.FVerbDSP.C58_defined",
    "Verif.FVerb.C58_program",
    "Verif.FVerbDSP.C58_counter_overflow",
    "Verif.FVerbDSP.C58_nan_predelay",
    "Verif.FVerb.C58_nan_program",
    "Verif.FVerbDSP.C58_low_rate",
    "Verif.FVerb.C58_init_rate"
   ],
   "note": "Proved for every program keeping the stated contract; every clause of the contract is shown to be needed, the sample rate of 23 Hz included (C58_low_rate: undefined at every rate up to 22 Hz)."
  },
  {
   "property": "C59",
   "status": "proved",
   "theorems": [
    "Verif.FVerbDSP.C59_linear",
    "Verif.FVerbDSP.C59_linear_defined",
    "Verif.FVerb.C59_silent"
   ],
   "note": "linearity in ideal arithmetic (rounding makes it false in floats), on the masked arrays, with definedness for sample rates from 45 Hz; silence bit-exact for all programs of the wrapper with non-NaN setter arguments and rates from 45 Hz"
  },
  {
   "property": "C60",
   "status": "partial",
   "theorems": [
    "Verif.C60_unit",
    "Verif.C60_frequency",
    "Verif.C60_times",
    "Verif.C60_one_sided",
    "Verif.C60_fade",
    "Verif.C60_comb_partial",
    "Verif.C60_xplay_partial",
    "Verif.C60_nan_stored",
    "Verif.C60_comb_init_exceeds",
    "Verif.C60_xplay_tiny_change_ignored"
   ],
   "note": "Proved bit-exactly for every non-NaN argument and every state for all clamping setters. False in three places: NaN is stored as it is by every two-sided clamp (C60_nan_stored), CombC::init stores a delay of 0.2 s even above the maximum delay (C60_comb_init_exceeds), XPlay ignores loop-point changes below 1e-9 (C60_xplay_tiny_change_ignored)."
  },
  {
   "property": "C61",
   "status": "proved",
   "theorems": [
    "Verif.Phasor.C61_phasor_exact",
    "Verif.BufRd.C61_playback"
   ],
   "note": "Bit-exact for binary32; every number of ticks; dyadic rates r/2^d with N*2^d + |r| <= 2^24. For other rates the position is rounded at every tick: see C62."
  },
  {
   "property": "C62",
   "status": "proved",
   "theorems": [
    "Verif.SinOsc.C62_pitch",
    "Verif.LFTri.C62_pitch",
    "Verif.SawDPW.C62_pitch",
    "Verif.LFNoise2.C62_rate",
    "Verif.LFTri.C62_slow_freezes",
    "Verif.LFNoise2.C62_zero_frequency_freezes",
    "Verif.Phasor.C62_phasor_stalls"
   ],
   "note": "Bit-exact for binary32, any number of samples; periods are counted as drops of the phase (LFNoise2: points drawn from the generator). The three last theorems prove the stated limits: modulators below sr*2^-25 Hz and a long phasor stop for ever."
  },
  {
   "property": "C63",
   "status": "proved",
   "theorems": [
    "Verif.C63_smooth",
    "Verif.C63_parabola",
    "Verif.BufRd.C63_loop",
    "Verif.BufRd.C63_loop_stereo",
    "Verif.LFNoise2.C63_curve",
    "Verif.CombC.C63_comb",
    "Verif.CombC.C63_short_delay_echo"
   ],
   "note": "Ideal arithmetic (rounding left out) except the last theorem, which refutes delays below two samples in binary32."
  },
  {
   "property": "C64",
   "status": "proved",
   "theorems": [
    "Verif.XPlay.C64_pitch",
    "Verif.XPlay.C64_set_rate",
    "Verif.XPlay.C64_output",
    "Verif.XPlay.C64_between_fades"
   ],
   "note": "Ideal arithmetic; for states in the window with derived members up to date, which C39_window proves of every history."
  },
  {
   "property": "C65",
   "status": "partial",
   "theorems": [
    "Verif.XPlay.C65_heads_move_partial",
    "Verif.XPlay.C65_jump",
    "Verif.XPlay.C65_heard",
    "Verif.XPlay.C65_level",
    "Verif.XPlay.C65_level_middle"
   ],
   "note": "False of the code. Proved: no seam except at the end of the circle of two loops; there the fading head jumps unless the loop is the whole recording or half of it (C65_jump, heard in C65_heard); the default loop swells by 3 dB (C65_level)."
  },
  {
   "property": "C66",
   "status": "proved",
   "theorems": [
    "Verif.Lag.C66_lag",
    "Verif.Lag.C66_lag_percent",
    "Verif.CombC.C66_comb"
   ],
   "note": "over the reals; the 60 dB reading is proved, the percentage in the documentation of Lag is refuted"
  },
  {
   "property": "C67",
   "status": "partial",
   "theorems": [
    "Verif.EnvelopeAR.tuned_run",
    "Verif.EnvelopeAR.C67_ar_attack_partial",
    "Verif.EnvelopeAR.C67_ar_release_partial",
    "Verif.EnvelopeAR.C67_ar_too_slow",
    "Verif.EnvelopeADSR.tuned_run",
    "Verif.EnvelopeADSR.C67_adsr_attack_partial",
    "Verif.EnvelopeADSR.C67_adsr_decay_partial",
    "Verif.EnvelopeADSR.C67_adsr_release_partial",
    "Verif.EnvelopeADSR.C67_adsr_too_slow"
   ],
   "note": "false as documented; the exact durations over the reals are proved"
  },
  {
   "property": "C68",
   "status": "proved",
   "theorems": [
    "Verif.RLPF.C68_rlpf_response",
    "Verif.RLPF.C68_rlpf_cutoff",
    "Verif.RLPF.C68_rlpf_nyquist",
    "Verif.RLPF.C68_lowpass_shape",
    "Verif.lowpass_norm",
    "Verif.OnePoleLPF.C68_onepole_response",
    "Verif.OnePoleLPF.C68_onepole_shape",
    "Verif.OnePoleLPF.C68_onepole_cutoff",
    "Verif.DCBlock.C68_dcblock_response",
    "Verif.DCBlock.C68_dcblock_shape",
    "Verif.DCBlock.C68_dcblock_cutoff",
    "Verif.heard_process",
    "Verif.sinusoid_polar"
   ],
   "note": "exact arithmetic; heard_process ties the endless stream to process, sinusoid_polar to the usual way of writing a sinusoid"
  },
  {
   "property": "C69",
   "status": "proved",
   "theorems": [
    "Verif.Oberheim.C69_loop_solved",
    "Verif.Oberheim.C69_poles",
    "Verif.Oberheim.C69_cutoff"
   ],
   "note": "exact arithmetic"
  },
  {
   "property": "C70",
   "status": "partial",
   "theorems": [
    "Verif.Microtracker.C70_microtracker_partial",
    "Verif.Krajeski.C70_krajeski_partial",
    "Verif.Krajeski.C70_krajeski_exists",
    "Verif.Krajeski.C70_krajeski_flat",
    "Verif.Oberheim.C70_oberheim_partial",
    "Verif.Oberheim.C70_oberheim_flat",
    "Verif.Stilson.C70_stilson_partial",
    "Verif.MusicDSP.C70_musicdsp_partial",
    "Verif.MusicDSP.C70_musicdsp_exists",
    "Verif.Improved.C70_improved_partial",
    "Verif.Improved.C70_improved_rests",
    "Verif.RKSimulation.C70_rk_partial"
   ],
   "note": "exact arithmetic; missing: high resonance (where the loop may oscillate), loud inputs for Stilson and MusicDSP, and for Improved and RKSimulation that the rest is reached (the rest level itself is proved)"
  },
  {
   "property": "C71",
   "status": "partial",
   "theorems": [
    "Verif.Krajeski.C71_krajeski_latches",
    "Verif.Stilson.C71_stilson_latches",
    "Verif.Microtracker.C71_microtracker_partial",
    "Verif.Krajeski.C71_krajeski_partial",
    "Verif.Oberheim.C71_oberheim_partial",
    "Verif.Stilson.C71_stilson_partial",
    "Verif.MusicDSP.C71_musicdsp_partial"
   ],
   "note": "the full statement is false: two ladders latch at full scale (witnesses proved); the partial theorems give ranges of settings in which the output dies away; exact arithmetic"
  },
  {
   "property": "C72",
   "status": "partial",
   "theorems": [
    "Verif.SndFile.C72_load_partial",
    "Verif.SndFile.C72_surround_overruns",
    "Verif.SndFile.C72_surround_undefined",
    "Verif.SndFile.C72_loadX"
   ],
   "note": "any sample type; false of the code for three or more channels (two witnesses: other buffers are overwritten, or the pool is left); proved for mono and stereo files in every reachable state of the allocator"
  },
  {
   "property": "C73",
   "status": "partial",
   "theorems": [
    "Verif.JackPlayback.C73_plays",
    "Verif.JackPlayback.C73_speed",
    "Verif.JackPlayback.C73_same_rate_partial",
    "Verif.JackPlayback.C73_long_file_freezes",
    "Verif.JackPlayback.C73_resampled_file_freezes"
   ],
   "note": "proved in ideal arithmetic for every file, block sequence and control; in binary32 exact for files of at most 2^23 frames at the server rate, and false for longer files (two negations); missing: a binary32 error bound for other rates and short files"
  },
  {
   "property": "C74",
   "status": "proved",
   "theorems": [
    "Verif.JackPlayback.C74_speed",
    "Verif.JackPlayback.C74_speed_range",
    "Verif.JackPlayback.C74_speed_mono",
    "Verif.JackPlayback.C74_left_edge",
    "Verif.JackPlayback.C74_right_edge",
    "Verif.MoogExample.C74_cutoff",
    "Verif.MoogExample.C74_cutoff_range",
    "Verif.MoogExample.C74_cutoff_mono",
    "Verif.MoogExample.C74_resonance",
    "Verif.MoogExample.C74_resonance_float",
    "Verif.SuperSawExample.C74_drive",
    "Verif.SuperSawExample.C74_drive_range",
    "Verif.JackXPlay.C74_loop_points"
   ],
   "note": "Exact formulas in ideal arithmetic (the maps use log and exp); single-precision ranges for resonance and loop points. C74_right_edge is the negative result."
  },
  {
   "property": "C75",
   "status": "proved",
   "theorems": [
    "Verif.JackExample.C75_block",
    "Verif.JackExample.C75_between",
    "Verif.JackExample.C75_pitch_range",
    "Verif.JackExample.C75_bounded",
    "Verif.JackExample.C75_two_presses_lost"
   ],
   "note": "What every block plays after every history; two presses between blocks are lost (negative result). The bound needs pitches up to a quarter of the rate."
  },
  {
   "property": "C76",
   "status": "proved",
   "theorems": [
    "Verif.JackExample.C76_note_falls_silent",
    "Verif.JackExample.C76_vibrato_lost",
    "Verif.MoogExample.C76_filter_shuts",
    "Verif.MoogExample.C76_start_is_right",
    "Verif.SuperSawExample.C76_voices_in_step",
    "Verif.SuperSawExample.C76_controls_restart",
    "Verif.JackPlayback.C76_restarts"
   ],
   "note": "The claim is false of the code; these are the negations, one per program."
  },
  {
   "property": "C77",
   "status": "proved",
   "theorems": [
    "Verif.MoogExample.C77_bounded",
    "Verif.MoogExample.C77_mouse"
   ],
   "note": "Ideal arithmetic; follows the Oberheim bound C51."
  },
  {
   "property": "C78",
   "status": "proved",
   "theorems": [
    "Verif.SuperSawExample.C78_meter"
   ],
   "note": "Ideal arithmetic; that no access leaves the ring is part of the statement."
  },
  {
   "property": "C79",
   "status": "proved",
   "theorems": [
    "Verif.JackXPlay.C79_mouse_does_nothing",
    "Verif.JackXPlay.C79_block"
   ],
   "note": "The claim is false of the code; the negation is proved for every history."
  },
  {
   "property": "C80",
   "status": "partial",
   "theorems": [
    "Verif.Lag.C80_stops_short",
    "Verif.Lag.C80_rests",
    "Verif.Lag.C80_ten_seconds_never_arrives",
    "Verif.Lag.C80_approach_partial",
    "Verif.Lag.C80_hull_float"
   ],
   "note": "The claim is false of the code for long lag times (negation proved with a documented initialisation); the bound that holds has a floor of 2^-22/(1-coeff). Binary32; exp assumed accurate to 2^-23."
  },
  {
   "property": "C81",
   "status": "proved",
   "theorems": [
    "Verif.FVerbDSP.C81_no_click",
    "Verif.FVerbDSP.C81_no_click_reverb",
    "Verif.FVerbDSP.C81_arrives",
    "Verif.FVerbDSP.C81_reverb_fades",
    "Verif.FVerbDSP.C81_heard"
   ],
   "note": "The fade in bit-exact binary32, accumulated rounding included; the mixing of the two taps in ideal arithmetic."
  },
  {
   "property": "C82",
   "status": "proved",
   "theorems": [
    "Verif.EnvelopeAR.C82_ar_no_click",
    "Verif.EnvelopeADSR.C82_adsr_no_click",
    "Verif.EnvelopeADSR.C82_adsr_sustain_clicks"
   ],
   "note": "Ideal arithmetic."
  },
  {
   "property": "C83",
   "status": "partial",
   "theorems": [
    "Verif.C83_filters_stick",
    "Verif.FVerbDSP.C83_reverb_sticks",
    "Verif.C83_dcblock_channels",
    "Verif.C83_tape_sticks",
    "Verif.C83_tape_silences_right",
    "Verif.Downsampler.C83_downsampler_sticks",
    "Verif.C83_ladders_stick",
    "Verif.C83_tanh_ladders_stick",
    "Verif.RKSimulation.C83_rk_sticks",
    "Verif.Stilson.C83_stilson_mute",
    "Verif.C83_comb_returns",
    "Verif.C83_oscillators_stick",
    "Verif.Krajeski.C83_krajeski_finite",
    "Verif.Krajeski.C83_krajeski_burst",
    "Verif.Krajeski.C83_krajeski_recovers",
    "Verif.C83_laglinear_recovers",
    "Verif.C83_noise_shrugs"
   ],
   "note": "the claim is false of the code; the negation is proved unit by unit, for all continuations; recovery is proved of LagLinear, LFNoise2 and the Krajeski ladder. The conditions on tanh and sin say that they pass NaN on, as C requires."
  },
  {
   "property": "C84",
   "status": "proved",
   "theorems": [
    "Verif.XPlay.C84_plays",
    "Verif.XPlay.C84_stops",
    "Verif.XPlay.C84_restarts"
   ],
   "note": "ideal arithmetic; loop mode. The first pass through the loop is described in full; the passes after it are C64 and C65. That the binary32 fade-in of long fades never completes is C16"
  },
  {
   "property": "C85",
   "status": "partial",
   "theorems": [
    "Verif.SuperSawExample.C85_runs_partial",
    "Verif.SuperSawExample.C85_one_stream",
    "Verif.SuperSawExample.C85_long_block",
    "Verif.SuperSawExample.C85_half_day"
   ],
   "note": "false for blocks over 8192 frames (C85_long_block) and from 2^31 frames on (C85_half_day); proved for everything else. Atomic loads of the controls are inputs of the model, one pair per frame; libm is a parameter of assumed accuracy"
  },
  {
   "property": "C86",
   "status": "partial",
   "theorems": [
    "Verif.FVerb.C86_no_heap_partial",
    "Verif.FVerb.C86_allocates",
    "Verif.SuperSawExample.C86_program_partial",
    "Verif.SuperSawExample.C86_first_block"
   ],
   "note": "false when a block is longer than all before (C86_allocates, C86_first_block); proved for all other blocks"
  },
  {
   "property": "C87",
   "status": "partial",
   "theorems": [
    "Verif.Pan2.C87_fresh",
    "Verif.Balance2.C87_fresh",
    "Verif.XFade2.C87_fresh",
    "Verif.Wrap.C87_fresh",
    "Verif.C87_oscillators",
    "Verif.LFTri.C87_fresh",
    "Verif.XLine.C87_fresh",
    "Verif.Phasor.C87_usage_example_stuck",
    "Verif.BufferAllocator.C87_before_init",
    "Verif.BufferAllocator.C87_used_before_init",
    "Verif.C87_default_rate",
    "Verif.XPlay.C87_fresh_rate"
   ],
   "note": "false for Phasor (C87_usage_example_stuck, binary32) and for the used space of an allocator before init (C87_used_before_init)"
  },
  {
   "property": "C88",
   "status": "partial",
   "theorems": [
    "Verif.SuperSaw.C88_parts",
    "Verif.SuperSaw.C88_note",
    "Verif.SuperSaw.C88_mono",
    "Verif.SuperSaw.C88_full_spread",
    "Verif.ExampleVoice.C88_parts",
    "Verif.ExampleVoice.C88_shared_noise",
    "Verif.ExampleVoice.C88_semitones",
    "Verif.ExampleVoice.C88_deep_vibrato"
   ],
   "note": "pitches, detuning, vibrato and mono sum proved in ideal arithmetic, the parts of ExampleVoice in any arithmetic; balance at full spread, independence of the noises and deep vibrato refuted"
  },
  {
   "property": "C89",
   "status": "proved",
   "theorems": [
    "Verif.OnePoleLPF.C89_onepole",
    "Verif.Lag.C89_lag",
    "Verif.DCBlock.C89_dcblock"
   ],
   "note": "binary32 run against the run of the same program over the reals, under LibmSpec (exp within 2^-23 on non-positive arguments); OnePoleLPF: 2 <= sr <= 2^20, any finite cutoffs (f = 1 asks nothing); Lag: lag times non-positive or at least 2^-40 s and at most N <= 2^20 samples; DCBlock: cutoffs non-positive or at least f >= sr/2^20"
  },
  {
   "property": "C90",
   "status": "proved",
   "theorems": [
    "Verif.LagLinear.C90_ramp_accuracy",
    "Verif.LagLinear.C90_ramp_freezes",
    "Verif.XLine.C90_line_accuracy",
    "Verif.XLine.C90_line_freezes"
   ],
   "note": "binary32; XLine under LogSpec (expf and logf within 2^-23 relative, expf of arguments up to 2^-26 rounds to 1), multiplier 1 and offset 0; the line length is the rounded product of duration and sample rate"
  },
  {
   "property": "C91",
   "status": "proved",
   "theorems": [
    "Verif.EnvelopeADSR.C91_done_iff",
    "Verif.EnvelopeADSR.C91_action_ignored"
   ],
   "note": "every number format; the second theorem is negative towards the documentation: the done action is stored and never read"
  },
  {
   "property": "C92",
   "status": "proved",
   "theorems": [
    "Verif.SuperSawExample.C92_chain",
    "Verif.SuperSawExample.C92_dc_bounded",
    "Verif.SuperSawExample.C92_dc_constant",
    "Verif.SuperSawExample.C92_dc_removed",
    "Verif.SuperSawExample.C92_bounded",
    "Verif.SuperSawExample.C92_notes",
    "Verif.SuperSawExample.C92_shared_phases",
    "Verif.SuperSawExample.C92_channels_alike"
   ],
   "note": "signal path and shared phases for every number format, notes in binary32, DC and bound in exact arithmetic; the reverb that follows is in C85 and C86"
  },
  {
   "property": "C93",
   "status": "proved",
   "theorems": [
    "Verif.EnvelopeAR.coeffs_run",
    "Verif.EnvelopeADSR.coeffs_run",
    "Verif.EnvelopeAR.C93_ar_release",
    "Verif.EnvelopeAR.C93_ar_attack",
    "Verif.EnvelopeADSR.C93_adsr_release",
    "Verif.EnvelopeADSR.C93_adsr_attack",
    "Verif.EnvelopeADSR.C93_adsr_decay",
    "Verif.EnvelopeAR.C93_note"
   ],
   "note": "binary32 counterpart of C67; exp and log are parameters with LibmSpec and LogSpec (one unit in the last place); settleTol states the tolerance; slower attacks and decays than 2^15 samples may never end, see C16"
  },
  {
   "property": "C94",
   "status": "proved",
   "theorems": [
    "Verif.BasicExample.C94_solo",
    "Verif.BasicExample.C94_duo",
    "Verif.BasicExample.C94_duo_sounds",
    "Verif.BasicExample.C94_osc",
    "Verif.BasicExample.C94_env",
    "Verif.BasicExample.C94_noise",
    "Verif.BasicExample.C94_peaks",
    "Verif.BasicExample.C94_active"
   ],
   "note": "The structure for any arithmetic, block size and number of passes; the values in binary32 with all rounding for any libm meeting LibmSpec and LogSpec (the noise needs none)."
  },
  {
   "property": "C95",
   "status": "proved",
   "theorems": [
    "Verif.ExampleVoice.C95_pan_clock",
    "Verif.ExampleVoice.C95_unison",
    "Verif.ExampleVoice.C95_same_draws",
    "Verif.ExampleVoice.C95_same_wave",
    "Verif.ExampleVoice.C95_stretched"
   ],
   "note": "Any arithmetic, except C95_stretched, which is about exact arithmetic (in binary32 the phases of the two generators are rounded differently)."
  },
  {
   "property": "C96",
   "status": "proved",
   "theorems": [
    "Verif.Pan2.C96_pan",
    "Verif.Balance2.C96_balance",
    "Verif.Balance2.C96_cached",
    "Verif.XFade2.C96_fade",
    "Verif.C96_linlin",
    "Verif.Wrap.C96_wrap"
   ],
   "note": "Binary32 with all rounding. Magnitudes: samples up to 2^60 (Pan2 2^100), levels up to 2^40, LinLin and Wrap arguments up to 2^30 with ranges of at least 2^-30. The exact ends are lost to rounding (C27, C28, C29); this says by how much."
  },
  {
   "property": "C97",
   "status": "proved",
   "theorems": [
    "Verif.Krajeski.C97_dark",
    "Verif.Krajeski.C97_bright",
    "Verif.Oberheim.C97_dark",
    "Verif.Oberheim.C97_bright"
   ],
   "note": "bit-exact double and single precision; libm assumed by Libm64Spec, Pow64Acc (pow of small integer exponents accurate to 40 bits, exact at zero) and Tan64Spec (tan x \u2264 0.99 up to 0.78), all with a correctly rounded witness"
  },
  {
   "property": "C98",
   "status": "proved",
   "theorems": [
    "Verif.Improved.C98_improved",
    "Verif.RKSimulation.C98_rk"
   ],
   "note": "bit-exact double and single precision; Improved assumes Libm64Spec and Tanh64Sat (tanh is exactly 1 or -1 beyond 22), with a correctly rounded witness; Runge-Kutta uses no library function"
  },
  {
   "property": "C99",
   "status": "partial",
   "theorems": [
    "Verif.CombC.C99_energy",
    "Verif.CombC.C99_finite_ring",
    "Verif.CombC.C99_explodes",
    "Verif.CombC.C99_explodes_default",
    "Verif.CombC.C99_explodes_between",
    "Verif.CombC.C99_unstable_between",
    "Verif.CombC.C99_explodes_below",
    "Verif.CombC.C99_unstable_below",
    "Verif.CombC.C99_zero_delay_grows",
    "Verif.CombC.C99_energy_float_partial",
    "Verif.CombC.C99_stable_float_partial",
    "Verif.CombC.C99_ring_float_partial",
    "Verif.C99_whole_float_partial"
   ],
   "note": "Proved for a delay of one sample and for all delays of at least two samples in ideal arithmetic; the claim is false at every delay strictly between one and two samples (C99_unstable_between; C99_explodes at 1.5) and, on lines of odd length with negative decay times, at every delay below one sample (C99_explodes_below, C99_unstable_below) and at a delay of zero (C99_zero_delay_grows). In binary32 with every rounding (C99_energy_float_partial; C99_stable_float_partial in terms of the delay and decay times alone) for delays of at least two samples and gains below 1 - (L + 36) / 2^20, L the length of the line in samples: below 0.99 for the default line of 0.2 s at 48 kHz; for whole delays from one sample on and gains below 1 - 2^-22 (C99_whole_float_partial). Missing: delays below one sample on lines of even length or with positive decay times at gains above 4/5, gains between 4/5 and the threshold of C99_explodes_between for delays between one and two samples, binary32 at gains closer to one."
  },
  {
   "property": "C100",
   "status": "partial",
   "theorems": [
    "Verif.BufferAllocator.C100_stays_refused",
    "Verif.BufferAllocator.C100_same_handle",
    "Verif.BufferAllocator.C100_stale_release"
   ],
   "note": "Proved as long as nothing is allocated in between; false after an allocation of the same size (C100_stale_release). Requests whose float count wraps around are excluded as in C01."
  },
  {
   "property": "C101",
   "status": "partial",
   "theorems": [
    "Verif.Downsampler.C101_response",
    "Verif.Downsampler.C101_passive",
    "Verif.Downsampler.C101_aliases",
    "Verif.Downsampler.C101_aliases_sharp",
    "Verif.Downsampler.C101_cutoff_loss",
    "Verif.Downsampler.C101_passband"
   ],
   "note": "exact arithmetic; false as documented: aliasing is reduced to a fifth, not prevented (C101_aliases_sharp), and more than 11 dB are lost at the nominal cutoff (C101_cutoff_loss)"
  },
  {
   "property": "C102",
   "status": "proved",
   "theorems": [
    "Verif.C102_opposite_float",
    "Verif.C102_opposite_real",
    "Verif.OnePoleLPF.C102_polarity",
    "Verif.DCBlock.C102_polarity",
    "Verif.Lag.C102_polarity",
    "Verif.RLPF.C102_polarity",
    "Verif.Tape.C102_polarity",
    "Verif.Tape.C102_biased",
    "Verif.Microtracker.C102_polarity",
    "Verif.MusicDSP.C102_polarity",
    "Verif.Stilson.C102_polarity",
    "Verif.Improved.C102_polarity",
    "Verif.Oberheim.C102_polarity",
    "Verif.RKSimulation.C102_polarity",
    "Verif.Krajeski.C102_polarity",
    "Verif.Krajeski.C102_polarity_exact",
    "Verif.Krajeski.C102_nan"
   ],
   "note": "one proof for floating-point and exact arithmetic, over the laws of sign change; tanh is assumed odd (Tanh64Odd, Tanh32Odd), with a correctly rounded witness"
  },
  {
   "property": "C103",
   "status": "partial",
   "theorems": [
    "Verif.FVerbDSP.C103_energy_partial",
    "Verif.FVerbDSP.C103_without_predelay_partial",
    "Verif.FVerbDSP.C103_peak_partial",
    "Verif.FVerbDSP.C103_modulated_partial",
    "Verif.FVerbDSP.C103_as_it_comes"
   ],
   "note": "Exact arithmetic, arrays of the code (through C48/C59): \u21132 gain at most 5 (1 + 1/(1 - density)) / (1 - 1.006 decay\u00b2), by losslessness of the allpasses with rising coefficients, a storage function for the smoothed one-pole filters and a small-gain argument around the two halves. With modulation: the two crossfaded taps of a moving delay read every sample with total weight at most 1 + band / crossfade, so the allpass around them has a gain slightly above 1; a new reverb (default parameters) has l2 gain at most 108 at every rate from 8 kHz. Missing: deep modulation, decays between 99.7 % and 100 %, parameter changes while running, rounding."
  },
  {
   "property": "C104",
   "status": "partial",
   "theorems": [
    "Verif.FVerbDSP.C104_tail_partial",
    "Verif.FVerbDSP.C104_as_it_comes"
   ],
   "note": "Exact arithmetic. Energy argument of C103 with exponentially weighted signals: some rate and constant for all inputs under the conditions of C103 with diffusers below 100 % and filters above 0 Hz; for the default parameters the bound is 350 times the loudness of the input, halving every second, at every rate from 8 kHz. Missing: deep modulation, longer decays, parameter changes while running, rounding."
  },
  {
   "property": "C105",
   "status": "partial",
   "theorems": [
    "Verif.CombC.C105_bounded_partial",
    "Verif.CombC.C105_bounded_float_partial",
    "Verif.CombC.C105_explodes",
    "Verif.CombC.C105_explodes_ten_ms"
   ],
   "note": "False of the code: from a gain of 4/5 on (decay times beyond about 31 times the delay, which includes the default decay of one second for delays below 32 ms) moving the delay to and fro by one sample makes a short burst grow for ever, for every sample rate and every delay of 4q samples. Proved for all histories whose gains stay below 4/5, for delays of any length, in ideal arithmetic; and in single precision with every rounding for decay times up to 30 times the delay (expf assumed accurate to 2^-23)."
  },
  {
   "property": "C106",
   "status": "partial",
   "theorems": [
    "Verif.AudioLoop.C106_whole_partial",
    "Verif.AudioLoop.C106_torn",
    "Verif.AudioLoop.C106_leaks"
   ],
   "note": "False as it stands: the swap does not wait for the reader. C106_torn shows that a swap followed by clearProcessingBuffer silences the rest of the block being read, for every block, size and position; C106_leaks that the next stores are heard at once. C106_whole_partial proves the claim for every interleaving with at most one swap and no store or clear after it while the block is read. Single loads, stores and calls are atomic and seen in order (sequential consistency is assumed; the index is a volatile uint8_t, which alone does not guarantee that)."
  },
  {
   "property": "C107",
   "status": "partial",
   "theorems": [
    "Verif.RLPF.C107_resonance",
    "Verif.RLPF.C107_cutoff_partial",
    "Verif.RLPF.C107_glide_partial",
    "Verif.RLPF.C107_explodes",
    "Verif.RLPF.C107_explodes_butterworth"
   ],
   "note": "True for the resonance: with any fixed cutoff every history of resonances is stable (C107_resonance). For the cutoff it holds as long as 2 Q stays below |tan w|, w the cutoff in radians per sample (C107_cutoff_partial), and is false beyond: with tan w1 |tan w2| < 4 Q^2 a cutoff that alternates between w1 and w2 from sample to sample makes a single click grow beyond every bound (C107_explodes), already for the default resonance and any two cutoffs below 0.1 and above 0.4 of the sample rate (C107_explodes_butterworth). At every resonance it also holds for a cutoff that moves by at most sin^2 w / 300 from sample to sample (C107_glide_partial). Open: modulation that is faster than this but gentler than the alternation. Ideal arithmetic."
  },
  {
   "property": "C108",
   "status": "proved",
   "theorems": [
    "Verif.RLPF.C108_finite",
    "Verif.RLPF.C108_dark",
    "Verif.RLPF.C108_glide"
   ],
   "note": "bit-exact double and single precision; sin and cos assumed accurate to 2^-50 on [0, 3.15] (SinCos64, with a correctly rounded witness). Every sample is finite and at most 2^22 (C108_finite), at most 512 with cutoffs up to a quarter of the sample rate (C108_dark). In these two the cutoff is changed only together with a reset; a cutoff that glides by at most sin^2 w / 300 from sample to sample while the filter rings keeps every sample below 2^45 (C108_glide). C107 shows that jumping about with it can make the filter explode."
  }
 ]
}